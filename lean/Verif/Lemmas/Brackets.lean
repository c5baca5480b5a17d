import Verif.Lemmas.Urls
import Verif.Lemmas.PhraseText
import Verif.Spec.Brackets
/-! Lemmas: macros with brackets. -/
namespace Verif.Inlines
open Verif TokenKind

theorem Run.link {env subs stop acc pend ctx t ts orig ls target caret il acc' pend' l' o' o}
    (hs : startsSeq stop (t :: ts) = false)
    (ha : act env subs stop ctx acc pend t ⟨ts, orig⟩ ls = .link target caret il acc' pend' l')
    (h' : Run env subs [] ⟨[], []⟩ none .linkMacroAttrs none [il] o')
    (h : Run env subs stop (acc'.push (linkNode target caret o'.nodes)) pend' .none (some l') ls o) :
    Run env subs stop acc pend ctx (some ⟨t :: ts, orig⟩) ls o := by
  obtain ⟨n, h⟩ := h
  obtain ⟨m, h'⟩ := h'
  refine ⟨max n m + 1, ?_⟩
  rw [go, if_neg (by simp [hs])]
  dsimp only
  rw [ha]
  dsimp only
  rw [go_mono (Nat.le_max_right n m) (by simp) h']
  exact go_mono (Nat.le_max_left n m) (by simp) h

theorem Run.note {env subs stop acc pend ctx t ts orig ls w acc' pend' ls' o' o}
    (hs : startsSeq stop (t :: ts) = false)
    (ha : act env subs stop ctx acc pend t ⟨ts, orig⟩ ls = .note w acc' pend' ls')
    (h' : Run env subs [.kind CloseBracket] ⟨[], []⟩ none ctx none ls' o')
    (h : Run env subs stop (acc'.push (.wrap w o'.nodes)) pend' o'.ctx none o'.lines o) :
    Run env subs stop acc pend ctx (some ⟨t :: ts, orig⟩) ls o := by
  obtain ⟨n, h⟩ := h
  obtain ⟨m, h'⟩ := h'
  refine ⟨max n m + 1, ?_⟩
  rw [go, if_neg (by simp [hs])]
  dsimp only
  rw [ha]
  dsimp only
  rw [go_mono (Nat.le_max_right n m) (by simp) h']
  exact go_mono (Nat.le_max_left n m) (by simp) h

/-- plain tokens before the rest of the line, up to any mark that is no text -/
theorem run_plain_to {env : Env} {subs : Substitutions} {stop : List TSpec} {ctx : Ctx} {ns : List Node} {rest : List Tok} {orig : Nat} {ls : List Line} {o : Out}
    (hstop : ∀ t ts, textKind t.kind = true → startsSeq stop (t :: ts) = false) (hr : isKind Plus rest.head? = false) :
    ∀ {ts : List Tok} {seg : List Char}, (∀ t ∈ ts, isPlainTok t = true) →
      Run env subs stop ⟨ns, seg ++ textOf ts⟩ none ctx (some ⟨rest, orig⟩) ls o →
      Run env subs stop ⟨ns, seg⟩ none ctx (some ⟨ts ++ rest, orig⟩) ls o := by
  intro ts
  induction ts with
  | nil => intro seg _ h; simpa [textOf] using h
  | cons t ts ih =>
    intro seg hts h
    obtain ⟨h1, h2, h3⟩ := plainTok_text (hts t (by simp))
    refine Run.tok (hstop _ _ h1) (act_text h1 h2 h3 ?_) (ih (fun u hu => hts u (by simp [hu])) ?_)
    · cases ts with
      | nil => exact hr
      | cons u us =>
        have := textKind_ne (k' := Plus) (plainTok_text (hts u (by simp))).1 (by decide)
        simp [isKind, this]
    · simpa [textOf] using h

theorem url_kind {t : Tok} (h : isUrlTok t = true) {k : TokenKind} (hk : ![Word, Digits, Dots, ForwardSlashes, Dashes, Underscore, EqualSigns, Ampersand, Tilde, Plus, Percent, Hash].contains k = true) :
    t.kind ≠ k := by
  rintro rfl
  simp only [isUrlTok, Bool.and_eq_true] at h
  rw [h.2] at hk
  cases hk

theorem ok_kind {t : Tok} (h : OkTok t) {k : TokenKind} (hk : ![Word, Digits, Whitespace, Newline, Comma, Dots, Bang, QuestionMark, Star,
    Underscore, Backtick, Hash].contains k = true) : t.kind ≠ k := by
  rintro rfl
  have := h.kinds
  simp only [← List.contains_iff_mem] at this
  rw [this] at hk
  cases hk

theorem plain_ok_kind {t : Tok} (h : isPlainTok t = true) {k : TokenKind} (hk : textKind k = false) : t.kind ≠ k :=
  textKind_ne (plainTok_text h).1 hk

/-- what the tokens of the text in the brackets must not be -/
def bracketFree (k : TokenKind) : Bool := ![OpenBracket, CloseBracket, Backslash, DoubleQuote, SingleQuote, EqualSigns, AttrRef, Caret].contains k

theorem linkScan_free : ∀ {l r : List Tok} {last : TokenKind}, last ≠ Backslash → (∀ t ∈ l, bracketFree t.kind = true) → (r = [] ∨ ∃ c cs, r = c :: cs ∧ c.kind = CloseBracket) →
    linkScan last false false (l ++ r) = some l.length
  | [], r, last, hlast, _, hr => by
    rcases hr with rfl | ⟨c, cs, rfl, hc⟩
    · rfl
    · simp [linkScan, hc, hlast]
  | t :: ts, r, last, hlast, h, hr => by
    have ht := h t (by simp)
    have hk : ∀ k, bracketFree k = false → t.kind ≠ k := by rintro k hk rfl; rw [ht] at hk; cases hk
    have h1 := hk OpenBracket (by decide)
    have h2 := hk CloseBracket (by decide)
    have h3 := hk Backslash (by decide)
    have h4 := hk DoubleQuote (by decide)
    have h5 := hk EqualSigns (by decide)
    have := linkScan_free (l := ts) (r := r) h3 (fun u hu => h u (by simp [hu])) hr
    simp [linkScan, hlast, h1, h2, h4, h5, this]

theorem not_backslash {k : TokenKind} (h : bracketFree k = true) : k ≠ Backslash := by
  rintro rfl; revert h; decide

theorem continuesMacro_line {name opening closing : Tok} {address text post : List Tok} (ha : ∀ t ∈ address, isUrlTok t = true) (ho : opening.kind = OpenBracket)
    (ht : ∀ t ∈ text, t.kind ≠ Backslash) (hc : closing.kind = CloseBracket) :
    continuesMacro name (address ++ opening :: (text ++ closing :: post)) = true := by
  have hhead : ∀ k, ![Word, Digits, Dots, ForwardSlashes, Dashes, Underscore, EqualSigns, Ampersand, Tilde, Plus, Percent, Hash, OpenBracket].contains k = true →
      isKind k (address ++ opening :: (text ++ closing :: post)).head? = false := by
    intro k hk
    cases address with
    | nil =>
      simp only [List.nil_append, List.head?_cons, isKind, ho]
      simp only [decide_eq_false_iff_not]
      rintro rfl
      revert hk; decide
    | cons a as =>
      have := url_kind (ha a (by simp)) (k := k) (by revert hk; cases k <;> simp)
      simpa [isKind] using this
  have h1 : indexOfSeq [.kind OpenBracket] (address ++ opening :: (text ++ closing :: post)) = some address.length :=
    indexOfSeq_one (fun t h => url_kind (ha t h) (by decide)) ho
  unfold continuesMacro
  rw [hhead Whitespace (by decide), hhead Colon (by decide), h1]
  cases he : indexOfSeq [.not Backslash, .kind CloseBracket] (address ++ opening :: (text ++ closing :: post)) with
  | none =>
    exfalso
    -- the last token before the closing bracket
    obtain ⟨p, x, hx, hxk⟩ : ∃ p x, opening :: text = p ++ [x] ∧ x.kind ≠ Backslash := by
      have hne : opening :: text ≠ [] := by simp
      refine ⟨_, _, (List.dropLast_concat_getLast hne).symm, ?_⟩
      have hm : (opening :: text).getLast hne ∈ opening :: text := List.getLast_mem hne
      rcases List.mem_cons.1 hm with h | h
      · rw [h, ho]; decide
      · exact ht _ h
    have hl : address ++ opening :: (text ++ closing :: post) = (address ++ p) ++ x :: closing :: post := by
      rw [← List.cons_append, hx]; simp
    have := indexOfSeq_none he (address ++ p).length (by rw [hl]; simp)
    rw [hl, List.drop_left' rfl] at this
    simp [matchSeq, TSpec.sat, hxk, hc] at this
  | some e =>
    obtain ⟨hm, -, -⟩ := indexOfSeq_some he
    obtain ⟨a, _, hd, -, hm⟩ := matchSeq_cons hm
    obtain ⟨b, bs, rfl, hb, -⟩ := matchSeq_cons hm
    simp only [TSpec.sat, decide_eq_true_eq] at hb
    have hle : address.length ≤ e := by
      false_or_by_contra
      rename_i hlt
      have hb2 : (address ++ opening :: (text ++ closing :: post))[e + 1]? = some b := by
        have := congrArg (fun l => l[1]?) hd
        simpa using this
      by_cases h2 : e + 1 < address.length
      · rw [List.getElem?_append_left h2] at hb2
        exact url_kind (ha b (List.mem_of_getElem? hb2)) (by decide) hb
      · rw [List.getElem?_append_right (by omega), show e + 1 - address.length = 0 by omega] at hb2
        simp only [List.getElem?_cons_zero, Option.some.injEq] at hb2
        rw [← hb2, ho] at hb
        cases hb
    simp [hle]

theorem beforeBracket_line {opening : Tok} {address more : List Tok} (ha : ∀ t ∈ address, isUrlTok t = true) (ho : opening.kind = OpenBracket) :
    beforeBracket (address ++ opening :: more) = address ∧
      ∀ orig, (Line.mk (address ++ opening :: more) orig).inBrackets = ⟨more, orig⟩ := by
  have h : ∀ t ∈ address, decide (t.kind ≠ OpenBracket) = true := fun t ht => by simpa using url_kind (ha t ht) (by decide)
  constructor
  · unfold beforeBracket
    rw [List.takeWhile_append_of_pos h, List.takeWhile_cons, if_neg (by simp [ho]), List.append_nil]
  · intro orig
    unfold Line.inBrackets
    dsimp only
    rw [List.dropWhile_append_of_pos h, List.dropWhile_cons, if_neg (by simp [ho])]
    rfl

theorem linkAct_line {acc : Acc} {target : List Char} {closing : Tok} {text post : List Tok} {orig : Nat} (h0 : text ≠ [])
    (ht : ∀ t ∈ text, bracketFree t.kind = true) (hc : closing.kind = CloseBracket) (hp : ∀ t ∈ post, isPlainTok t = true) :
    linkAct acc none target ⟨text ++ closing :: post, orig⟩ = .link target false (Line.new text) acc none ⟨post, orig⟩ := by
  have hfree : ∀ {t : Tok} (_ : t ∈ text) {k : TokenKind} (_ : bracketFree k = false), t.kind ≠ k := by
    rintro t h k hk rfl
    rw [ht t h] at hk; cases hk
  have hscan : linkScan Eof false false (text ++ closing :: post).dropLast = some text.length := by
    cases hpost : post with
    | nil =>
      have : (text ++ [closing]).dropLast = text := by simp
      rw [this]
      have := linkScan_free (r := []) (last := Eof) (by decide) ht (.inl rfl)
      simpa using this
    | cons p ps =>
      rw [List.dropLast_append_of_ne_nil (by simp), List.dropLast_cons_of_ne_nil (by simp)]
      exact linkScan_free (by decide) ht (.inr ⟨_, _, rfl, hc⟩)
  have hhead : isKind CloseBracket (text ++ closing :: post).head? = false := by
    cases text with
    | nil => exact absurd rfl h0
    | cons t ts => simpa [isKind] using hfree (t := t) (by simp) (k := CloseBracket) (by decide)
  have hfil : text.filter (fun t : Tok => decide (t.kind ≠ AttrRef)) = text :=
    List.filter_eq_self.2 fun t h => by simpa using hfree h (k := AttrRef) (by decide)
  have hunq : unquoteToks text = text := by
    unfold unquoteToks
    rw [if_neg]
    rintro ⟨-, ⟨h, -⟩ | ⟨h, -⟩⟩ <;> cases htx : text with
    | nil => exact h0 htx
    | cons t ts =>
      rw [htx] at h
      simp only [isKind, List.head?_cons, decide_eq_true_eq] at h
      exact hfree (t := t) (by simp [htx]) (by rw [h]; decide) rfl
  have hcaret : (text ++ closing :: post).any (fun t => decide (t.kind = Caret)) = false := by
    simp only [List.any_eq_false, List.mem_append, List.mem_cons, decide_eq_true_eq]
    rintro t (h | rfl | h)
    · exact hfree h (by decide)
    · simp [hc]
    · exact plain_ok_kind (hp t h) (by decide)
  unfold linkAct
  simp only [hscan, hhead, List.take_left, hfil, hunq, hcaret, h0, Bool.false_eq_true, if_false]
  rw [if_pos (by simp [isKind, hc])]
  simp [Line.drop, List.drop_append]

theorem commit_text (s : List Char) : (⟨[], s⟩ : Acc).commit = ⟨textNode s, []⟩ := by
  by_cases h0 : s = [] <;> simp [Acc.commit, textNode, h0]

theorem finish_behind {ns : List Node} {n : Node} {s : List Char} {p} (hn : n = .wrap p ns) (ms : List Node) :
    finish (joinNewline ⟨ms ++ [n], s⟩ []) none = ms ++ n :: textNode s := by
  subst hn
  simp only [joinNewline, List.isEmpty_nil, if_true, finish, Acc.unused]
  by_cases h0 : s = []
  · simp only [Acc.commit, h0, if_true, textNode]
    rw [trimmed_clean (by simp)]
  · simp only [Acc.commit, h0, if_false, textNode, List.getLast?_concat]
    rw [trimmed_clean (by simp)]
    simp

theorem start_ok {pre : List Tok} {name : Tok} {more : List Tok} (hp : ∀ t ∈ pre, isPlainTok t = true) (hk : name.kind ≠ ForwardSlashes) :
    isComment (Line.new (pre ++ name :: more)) = false := by
  unfold isComment Line.new
  cases pre with
  | nil => simp [satOpt, TSpec.sat, hk]
  | cons t ts =>
    have := textKind_ne (k' := ForwardSlashes) (plainTok_text (hp t (by simp))).1 (by decide)
    simp [satOpt, TSpec.sat, this]

/-- a line with a link, once it is known that the first token begins one -/
theorem parse_link {env : Env} (hst : ∀ l, env.stops l = false) {subs : Substitutions} (hf : subs.contains .inlineFormatting = true)
    {pre address text post : List Tok} {name opening closing : Tok} {target : List Char} {ps : List Ph} (hb : BracketLine pre name address opening text closing post)
    (hw : WellFormed ps) (hps : PhraseToks ps text) (hk : name.kind ≠ ForwardSlashes ∧ name.kind ≠ Plus)
    (hact : ∀ acc orig, act env subs [] .none acc none name ⟨address ++ opening :: (text ++ closing :: post), orig⟩ [] =
      linkAct acc none target ⟨text ++ closing :: post, orig⟩) :
    ∃ o, parse env subs [Line.new (pre ++ name :: (address ++ opening :: (text ++ closing :: post)))] = .ok o ∧
      o.nodes = textNode (textOf pre) ++ .wrap (.link target false true) (shownAll ps) :: textNode (textOf post) ∧ o.lines = [] := by
  have hfree : ∀ t ∈ text, bracketFree t.kind = true := by
    intro t ht
    have := (hps.ok t ht).kinds
    revert this
    generalize t.kind = k
    cases k <;> simp [bracketFree]
  obtain ⟨ctx', hin⟩ := run_pieces (prev := some '[') (ctx := .linkMacroAttrs) hst hf rfl hw (showsAll_of_flat hps.ok hw.1 hps.written) hps.ok hps.line hps.chained (by decide)
  refine ⟨⟨textNode (textOf pre) ++ .wrap (.link target false true) (shownAll ps) :: textNode (textOf post), .none, []⟩,
    Run.parse (Run.enter (hst _) (start_ok hb.preOk hk.1) (run_plain (by simp [isKind, hk.2]) hb.preOk (Run.link (by simp [startsSeq])
      ((hact _ _).trans (linkAct_line hb.nonempty hfree hb.closingOk hb.postOk)) hin ?_))), rfl, rfl⟩
  have hnode : linkNode target false (shownAll ps) = .wrap (.link target false true) (shownAll ps) := by
    unfold linkNode
    split <;> simp
  have := run_plain (env := env) (subs := subs) (ns := textNode (textOf pre) ++ [.wrap (.link target false true) (shownAll ps)]) (rest := [])
    (orig := (pre ++ name :: (address ++ opening :: (text ++ closing :: post))).length) (ls := [])
    (o := ⟨textNode (textOf pre) ++ .wrap (.link target false true) (shownAll ps) :: textNode (textOf post), .none, []⟩) rfl (ts := post) (seg := []) hb.postOk ?_
  · simp only [List.append_nil] at this
    simp only [List.nil_append, Acc.push, commit_text, hnode]
    exact this
  · refine Run.lineEnd (by simp) ?_
    rw [← finish_behind (s := textOf post) rfl, List.nil_append]
    exact Run.finished

theorem parse_url_link {env : Env} (hst : ∀ l, env.stops l = false) {subs : Substitutions} (hf : subs.contains .inlineFormatting = true) (hm : subs.contains .macros = true)
    {pre address text post : List Tok} {name opening closing : Tok} {ps : List Ph} (hb : BracketLine pre name address opening text closing post)
    (hw : WellFormed ps) (hps : PhraseToks ps text) (hk : name.kind = UriScheme) (hs : knownScheme name.lexeme = true) :
    ∃ o, parse env subs [Line.new (pre ++ name :: (address ++ opening :: (text ++ closing :: post)))] = .ok o ∧
      o.nodes = textNode (textOf pre) ++ .wrap (.link (name.lexeme ++ textOf address) false true) (shownAll ps) :: textNode (textOf post) ∧ o.lines = [] := by
  have hfree : ∀ t ∈ text, bracketFree t.kind = true := by
    intro t ht
    have := (hps.ok t ht).kinds
    revert this
    generalize t.kind = k
    cases k <;> simp [bracketFree]
  refine parse_link hst hf hb hw hps (by simp [hk]) fun acc orig => ?_
  have hcm := continuesMacro_line (name := name) (post := post) hb.addressOk hb.openingOk (fun t h => not_backslash (hfree t h)) hb.closingOk
  obtain ⟨h1, h2⟩ := beforeBracket_line (more := text ++ closing :: post) hb.addressOk hb.openingOk
  have h3 : uriMacroAct acc none name ⟨address ++ opening :: (text ++ closing :: post), orig⟩ =
      linkAct acc none (name.lexeme ++ textOf address) ⟨text ++ closing :: post, orig⟩ := by
    unfold uriMacroAct
    rw [if_pos hs, h2]
    simp only [h1]
    rfl
  simp [act, attrsCase, replaceCase, macroCase, hk, hm, hcm, h3]

theorem plainOf_url {ts : List Tok} (h : ∀ t ∈ ts, isUrlTok t = true) : plainOf ts = textOf ts := by
  unfold plainOf textOf
  rw [List.filter_eq_self.2]
  intro t ht
  have h1 := url_kind (h t ht) (k := AttrRef) (by decide)
  have h2 := url_kind (h t ht) (k := Backslash) (by decide)
  simp [h1, h2]

theorem noWs_url {ts more : List Tok} {opening : Tok} (h : ∀ t ∈ ts, isUrlTok t = true) (ho : opening.kind = OpenBracket) :
    noWhitespaceUntil OpenBracket false (ts ++ opening :: more) = true := by
  induction ts with
  | nil => simp [noWhitespaceUntil, ho]
  | cons t ts ih =>
    have h1 := url_kind (h t (by simp)) (k := AttrRef) (by decide)
    have h2 := url_kind (h t (by simp)) (k := Whitespace) (by decide)
    simp [noWhitespaceUntil, h1, h2, ih fun u hu => h u (by simp [hu])]

theorem parse_macro_link {env : Env} (hst : ∀ l, env.stops l = false) {subs : Substitutions} (hf : subs.contains .inlineFormatting = true) (hm : subs.contains .macros = true)
    {pre address text post : List Tok} {name opening closing : Tok} {ps : List Ph} (hb : BracketLine pre name address opening text closing post)
    (hw : WellFormed ps) (hps : PhraseToks ps text) (hk : name.kind = MacroName) (hs : name.lexeme = "link:".toList) :
    ∃ o, parse env subs [Line.new (pre ++ name :: (address ++ opening :: (text ++ closing :: post)))] = .ok o ∧
      o.nodes = textNode (textOf pre) ++ .wrap (.link (textOf address) false true) (shownAll ps) :: textNode (textOf post) ∧ o.lines = [] := by
  have hfree : ∀ t ∈ text, bracketFree t.kind = true := by
    intro t ht
    have := (hps.ok t ht).kinds
    revert this
    generalize t.kind = k
    cases k <;> simp [bracketFree]
  refine parse_link hst hf hb hw hps (by simp [hk]) fun acc orig => ?_
  have hcm := continuesMacro_line (name := name) (post := post) hb.addressOk hb.openingOk (fun t h => not_backslash (hfree t h)) hb.closingOk
  obtain ⟨h1, h2⟩ := beforeBracket_line (more := text ++ closing :: post) hb.addressOk hb.openingOk
  have h3 : macroAct acc none name ⟨address ++ opening :: (text ++ closing :: post), orig⟩ [] =
      linkAct acc none (textOf address) ⟨text ++ closing :: post, orig⟩ := by
    unfold macroAct
    rw [if_neg (by rw [hs]; decide), if_neg (by rw [hs]; decide), if_pos hs, if_pos (noWs_url hb.addressOk hb.openingOk), if_neg, h2]
    · simp only [h1, plainOf_url hb.addressOk]
    · cases ha : address with
      | nil => simp [startsSeq, matchSeq, TSpec.sat, hb.openingOk]
      | cons a as =>
        have := url_kind (hb.addressOk a (by simp [ha])) (k := PreprocPassthru) (by decide)
        simp [startsSeq, matchSeq, TSpec.sat, this]
  simp [act, attrsCase, replaceCase, macroCase, hk, hm, hcm, h3]

theorem parse_note {env : Env} (hst : ∀ l, env.stops l = false) {subs : Substitutions} (hm : subs.contains .macros = true)
    {pre address text post : List Tok} {name opening closing : Tok} (hb : BracketLine pre name address opening text closing post) {w : Wrap}
    (ht : ∀ t ∈ text, isPlainTok t = true) (hk : name.kind = MacroName)
    (hw : name.lexeme = "xref:".toList ∧ w = .xrefMacro (textOf address) ∨
      name.lexeme = "footnote:".toList ∧ w = .footnote (if address = [] then none else some (textOf address))) :
    ∃ o, parse env subs [Line.new (pre ++ name :: (address ++ opening :: (text ++ closing :: post)))] = .ok o ∧
      o.nodes = textNode (textOf pre) ++ .wrap w (textNode (textOf text)) :: textNode (textOf post) ∧ o.lines = [] := by
  have hfree : ∀ t ∈ text, bracketFree t.kind = true := by
    intro t h
    have := (plainTok_text (ht t h)).1
    revert this
    generalize t.kind = k
    cases k <;> simp [bracketFree, textKind]
  have hcm := continuesMacro_line (name := name) (post := post) hb.addressOk hb.openingOk (fun t h => not_backslash (hfree t h)) hb.closingOk
  obtain ⟨h1, h2⟩ := beforeBracket_line (more := text ++ closing :: post) hb.addressOk hb.openingOk
  have hact : ∀ acc orig, act env subs [] .none acc none name ⟨address ++ opening :: (text ++ closing :: post), orig⟩ [] =
      .note w acc none [⟨text ++ closing :: post, orig⟩] := by
    intro acc orig
    have hres : restore (Line.mk (text ++ closing :: post) orig) [] = [⟨text ++ closing :: post, orig⟩] := by
      unfold restore
      rw [if_neg (by simp)]
    have h3 : macroAct acc none name ⟨address ++ opening :: (text ++ closing :: post), orig⟩ [] = .note w acc none [⟨text ++ closing :: post, orig⟩] := by
      unfold macroAct
      rcases hw with ⟨hs, rfl⟩ | ⟨hs, rfl⟩
      · rw [if_neg (by rw [hs]; decide), if_pos hs, h2, hres]
        simp only [h1, plainOf_url hb.addressOk]
      · rw [if_pos hs, h2, hres]
        simp only [h1, plainOf_url hb.addressOk]
        cases ha : address with
        | nil => simp [isKind, hb.openingOk]
        | cons a as =>
          have := url_kind (hb.addressOk a (by simp [ha])) (k := OpenBracket) (by decide)
          simp [isKind, this]
    simp [act, attrsCase, replaceCase, macroCase, hk, hm, hcm, h3]
  have hlen : (text ++ closing :: post).length < (pre ++ name :: (address ++ opening :: (text ++ closing :: post))).length := by
    simp only [List.length_append, List.length_cons]; omega
  have hstop : ∀ (t : Tok) ts, textKind t.kind = true → startsSeq [.kind CloseBracket] (t :: ts) = false := by
    intro t ts h
    have := textKind_ne (k' := CloseBracket) h (by decide)
    simp [startsSeq, matchSeq, TSpec.sat, this]
  have hfin : finish (⟨[], textOf text⟩ : Acc).commit none = textNode (textOf text) := by
    rw [commit_text]
    simp only [finish, Acc.unused, Acc.commit, if_true]
    rw [trimmed_clean]
    intro s hs
    unfold textNode at hs
    split at hs <;> simp at hs
  refine ⟨⟨textNode (textOf pre) ++ .wrap w (textNode (textOf text)) :: textNode (textOf post), .none, []⟩,
    Run.parse (Run.enter (hst _) (start_ok hb.preOk (by simp [hk])) (run_plain (by simp [isKind, hk]) hb.preOk (Run.note (by simp [startsSeq])
      (hact _ _) (o' := ⟨textNode (textOf text), .none, restore ⟨post, (pre ++ name :: (address ++ opening :: (text ++ closing :: post))).length⟩ []⟩) ?_ ?_))), rfl, rfl⟩
  · refine Run.enter (hst _) ?_ ?_
    · have : (Line.mk (text ++ closing :: post) (pre ++ name :: (address ++ opening :: (text ++ closing :: post))).length).full = false := by
        simp only [Line.full, decide_eq_false_iff_not]; omega
      unfold isComment
      rw [this]
      simp
    · refine run_plain_to hstop (by simp [isKind, hb.closingOk]) ht ?_
      have := @Run.stop env subs [.kind CloseBracket] ⟨[], textOf text⟩ none .none ⟨closing :: post, (pre ++ name :: (address ++ opening :: (text ++ closing :: post))).length⟩ []
        (by simp [startsSeq, matchSeq, TSpec.sat, hb.closingOk])
      rw [hfin] at this
      exact this
  · dsimp only
    have hpush : (⟨[], [] ++ textOf pre⟩ : Acc).push (.wrap w (textNode (textOf text))) = ⟨textNode (textOf pre) ++ [.wrap w (textNode (textOf text))], []⟩ := by
      simp only [Acc.push, List.nil_append, commit_text]
    rw [hpush]
    rw [← finish_behind (s := textOf post) rfl]
    cases hpost : post with
    | nil => exact Run.finished
    | cons p ps =>
      rw [← hpost]
      have hr : restore (Line.mk post (pre ++ name :: (address ++ opening :: (text ++ closing :: post))).length) [] = [⟨post, (pre ++ name :: (address ++ opening :: (text ++ closing :: post))).length⟩] := by
        unfold restore
        rw [if_neg (by simp [hpost])]
      rw [hr]
      refine Run.enter (hst _) ?_ ?_
      · have : textKind p.kind = true := (plainTok_text (hb.postOk p (by simp [hpost]))).1
        have := textKind_ne (k' := ForwardSlashes) this (by decide)
        simp [isComment, hpost, satOpt, TSpec.sat, this]
      · have := run_plain (env := env) (subs := subs) (ns := textNode (textOf pre) ++ [.wrap w (textNode (textOf text))]) (rest := [])
          (orig := (pre ++ name :: (address ++ opening :: (text ++ closing :: post))).length) (ls := [])
          (o := ⟨finish (joinNewline ⟨textNode (textOf pre) ++ [.wrap w (textNode (textOf text))], textOf post⟩ []) none, .none, []⟩) rfl (ts := post) (seg := []) hb.postOk ?_
        · simpa using this
        · refine Run.lineEnd (by simp) ?_
          rw [List.nil_append]
          exact Run.finished

end Verif.Inlines

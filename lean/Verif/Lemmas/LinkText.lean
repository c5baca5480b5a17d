import Verif.Lemmas.Brackets
import Verif.Spec.LinkText
/-! Lemmas: texts of links with equal signs in them. -/
namespace Verif.Inlines
open Verif TokenKind

theorem act_equals {env subs stop ctx acc t line ls} (hk : t.kind = EqualSigns) (hg : isKind GreaterThan line.toks.head? = false)
    (hp : isKind Plus line.toks.head? = false) :
    act env subs stop ctx acc none t line ls = .next (acc.putText t.lexeme) none line := by
  simp [act, attrsCase, replaceCase, macroCase, attrRefCase, calloutCase, linkCase, emphasisCase, anchorCase, monoCase,
      curlyCase, hashCase, charCase, breakCase, lastCase, hk, hp, hg, Acc.unused]

theorem textOrEquals_kind {t : Tok} (h : isTextOrEquals t = true) {k : TokenKind} (hk : textKind k = false) (he : k ≠ EqualSigns) : t.kind ≠ k := by
  simp only [isTextOrEquals, Bool.or_eq_true, decide_eq_true_eq] at h
  rcases h with h | h
  · exact plain_ok_kind h hk
  · rw [h]; exact fun e => he e.symm

/-- text with equal signs, to the end of the line -/
theorem run_equals {env : Env} {subs : Substitutions} {ctx : Ctx} {ns : List Node} {orig : Nat} {ls : List Line} {o : Out} :
    ∀ {ts : List Tok} {seg : List Char}, (∀ t ∈ ts, isTextOrEquals t = true) →
      Run env subs [] ⟨ns, seg ++ textOf ts⟩ none ctx (some ⟨[], orig⟩) ls o →
      Run env subs [] ⟨ns, seg⟩ none ctx (some ⟨ts, orig⟩) ls o := by
  intro ts
  induction ts with
  | nil => intro seg _ h; simpa [textOf] using h
  | cons t ts ih =>
    intro seg hts h
    have hnext : ∀ k, textKind k = false → k ≠ EqualSigns → isKind k ts.head? = false := by
      intro k hk he
      cases ts with
      | nil => rfl
      | cons u us =>
        have := textOrEquals_kind (hts u (by simp)) hk he
        simp [isKind, this]
    refine Run.tok (by simp [startsSeq]) (acc' := ⟨ns, seg ++ t.lexeme⟩) (pend' := none) (l' := ⟨ts, orig⟩) ?_ (ih (fun u hu => hts u (by simp [hu])) ?_)
    · have ht := hts t (by simp)
      simp only [isTextOrEquals, Bool.or_eq_true, decide_eq_true_eq] at ht
      rcases ht with ht | ht
      · obtain ⟨h1, h2, h3⟩ := plainTok_text ht
        exact act_text h1 h2 h3 (hnext Plus (by decide) (by decide))
      · exact act_equals ht (hnext GreaterThan (by decide) (by decide)) (hnext Plus (by decide) (by decide))
    · simpa [textOf] using h

theorem run_equals_line {env : Env} (hst : ∀ l, env.stops l = false) {subs : Substitutions} {ctx : Ctx} {ts : List Tok}
    (h : ∀ t ∈ ts, isTextOrEquals t = true) :
    Run env subs [] ⟨[], []⟩ none ctx none [Line.new ts] ⟨textNode (textOf ts), ctx, []⟩ := by
  refine Run.enter (hst _) ?_ (run_equals (orig := ts.length) h (Run.lineEnd (by simp) ?_))
  · unfold isComment Line.new
    cases ts with
    | nil => simp [satOpt]
    | cons t ts =>
      have := textOrEquals_kind (h t (by simp)) (k := ForwardSlashes) (by decide) (by decide)
      simp [satOpt, TSpec.sat, this]
  · have e : textNode (textOf ts) = finish (joinNewline ⟨[], [] ++ textOf ts⟩ []) none := by
      simp only [joinNewline, List.isEmpty_nil, if_true, finish, Acc.unused, List.nil_append]
      by_cases h0 : textOf ts = []
      · simp only [Acc.commit, h0, if_true, textNode]
        rfl
      · simp only [Acc.commit, h0, if_false, textNode]
        rw [trimmed_clean (by simp)]
        simp
    rw [e]
    exact Run.finished

/-- text in the brackets does not end the scan -/
theorem linkScan_text {dq : Bool} {r : List Tok} : ∀ {l : List Tok} {last : TokenKind}, last ≠ Backslash →
    (∀ t ∈ l, isTextOrEquals t = true ∧ (t.kind = EqualSigns → dq = true ∨ t.len ≠ 1)) →
    ∃ last', last' ≠ Backslash ∧ linkScan last dq false (l ++ r) = (linkScan last' dq false r).map (· + l.length)
  | [], last, hlast, _ => ⟨last, hlast, by simp⟩
  | t :: ts, last, hlast, h => by
    have ht := h t (by simp)
    have hk : ∀ k, textKind k = false → k ≠ EqualSigns → t.kind ≠ k := fun k => textOrEquals_kind ht.1
    have h1 := hk OpenBracket (by decide) (by decide)
    have h2 := hk CloseBracket (by decide) (by decide)
    have h3 := hk Backslash (by decide) (by decide)
    have h4 := hk DoubleQuote (by decide) (by decide)
    obtain ⟨last', hl, he⟩ := linkScan_text (dq := dq) (r := r) (l := ts) h3 fun u hu => h u (by simp [hu])
    refine ⟨last', hl, ?_⟩
    have h5 : ¬ (t.kind = EqualSigns ∧ t.len = 1 ∧ (!dq) = true) := by
      rintro ⟨a, b, c⟩
      rcases ht.2 a with h | h
      · simp [h] at c
      · exact h b
    rw [List.cons_append, linkScan, if_neg (by simp [hlast]), if_neg (by simp [hlast]), if_neg h4, if_neg h1, if_neg h2, if_neg h5, he]
    cases linkScan last' dq false r <;> simp <;> omega

theorem linkScan_readAs {text shown r : List Tok} (h : ReadAs text shown) (hr : r = [] ∨ ∃ c cs, r = c :: cs ∧ c.kind = CloseBracket) :
    linkScan Eof false false (text ++ r) = some text.length := by
  have hend : ∀ last, last ≠ Backslash → linkScan last false false r = some 0 := by
    intro last hl
    rcases hr with rfl | ⟨c, cs, rfl, hc⟩
    · rfl
    · simp [linkScan, hc, hl]
  cases h with
  | bare h0 h =>
    obtain ⟨last', hl, he⟩ := linkScan_text (dq := false) (r := r) (last := Eof) (by decide) (fun t ht => ⟨(h t ht).1, fun e => .inr ((h t ht).2 e)⟩)
    rw [he, hend _ hl]; simp
  | quoted hq hq' h0 h =>
    rename_i q q'
    obtain ⟨last', hl, he⟩ := linkScan_text (dq := true) (r := q' :: r) (last := DoubleQuote) (by decide) (fun t ht => ⟨h t ht, fun _ => .inl rfl⟩)
    have e1 : q :: shown ++ [q'] ++ r = q :: (shown ++ q' :: r) := by simp
    rw [e1, linkScan, if_neg (by simp), if_neg (by simp), if_pos hq, hq]
    simp only [Bool.not_false]
    rw [he, linkScan, if_neg (by simp [hl]), if_neg (by simp [hl]), if_pos hq']
    simp only [Bool.not_true]
    rw [hend _ (by rw [hq']; decide)]
    simp; omega

theorem readAs_mem {text shown : List Tok} (h : ReadAs text shown) : ∀ t ∈ text, t.kind = DoubleQuote ∨ isTextOrEquals t = true := by
  cases h with
  | bare h0 h => exact fun t ht => .inr (h t ht).1
  | quoted hq hq' h0 h =>
    intro t ht
    simp only [List.cons_append, List.mem_cons, List.mem_append, List.not_mem_nil, or_false] at ht
    rcases ht with rfl | ht | rfl
    · exact .inl hq
    · exact .inr (h t ht)
    · exact .inl hq'

theorem readAs_kind {text shown : List Tok} (h : ReadAs text shown) {k : TokenKind} (hk : textKind k = false) (he : k ≠ EqualSigns)
    (hd : k ≠ DoubleQuote) : ∀ t ∈ text, t.kind ≠ k := by
  intro t ht
  rcases readAs_mem h t ht with e | e
  · rw [e]; exact fun x => hd x.symm
  · exact textOrEquals_kind e hk he

theorem unquote_readAs {text shown : List Tok} (h : ReadAs text shown) : unquoteToks text = shown ∧ text ≠ [] ∧ shown ≠ [] := by
  cases h with
  | bare h0 h =>
    refine ⟨?_, h0, h0⟩
    unfold unquoteToks
    rw [if_neg]
    rintro ⟨-, ⟨hx, -⟩ | ⟨hx, -⟩⟩ <;> cases htx : text with
    | nil => exact h0 htx
    | cons t ts =>
      rw [htx] at hx
      simp only [isKind, List.head?_cons, decide_eq_true_eq] at hx
      exact textOrEquals_kind (h t (by simp [htx])).1 (by decide) (by decide) hx
  | quoted hq hq' h0 h =>
    refine ⟨?_, by simp, h0⟩
    unfold unquoteToks
    rw [if_pos]
    · simp
    · refine ⟨by simp, .inl ⟨by simp [isKind, hq], ?_⟩⟩
      rename_i q q'
      have : (q :: shown ++ [q']).getLast? = some q' := List.getLast?_concat
      rw [this]
      simp [isKind, hq']

theorem linkAct_readAs {acc : Acc} {target : List Char} {closing : Tok} {text shown post : List Tok} {orig : Nat} (h : ReadAs text shown)
    (hc : closing.kind = CloseBracket) (hp : ∀ t ∈ post, isPlainTok t = true) :
    linkAct acc none target ⟨text ++ closing :: post, orig⟩ = .link target false (Line.new shown) acc none ⟨post, orig⟩ := by
  obtain ⟨hunq, h0, h1⟩ := unquote_readAs h
  have hscan : linkScan Eof false false (text ++ closing :: post).dropLast = some text.length := by
    cases hpost : post with
    | nil =>
      have : (text ++ [closing]).dropLast = text := by simp
      rw [this]
      simpa using linkScan_readAs (r := []) h (.inl rfl)
    | cons p ps =>
      rw [List.dropLast_append_of_ne_nil (by simp), List.dropLast_cons_of_ne_nil (by simp)]
      exact linkScan_readAs h (.inr ⟨_, _, rfl, hc⟩)
  have hhead : isKind CloseBracket (text ++ closing :: post).head? = false := by
    cases ht : text with
    | nil => exact absurd ht h0
    | cons t ts => simpa [isKind] using readAs_kind h (k := CloseBracket) (by decide) (by decide) (by decide) t (by simp [ht])
  have hfil : text.filter (fun t : Tok => decide (t.kind ≠ AttrRef)) = text :=
    List.filter_eq_self.2 fun t ht => by simpa using readAs_kind h (k := AttrRef) (by decide) (by decide) (by decide) t ht
  have hcaret : (text ++ closing :: post).any (fun t => decide (t.kind = Caret)) = false := by
    simp only [List.any_eq_false, List.mem_append, List.mem_cons, decide_eq_true_eq]
    rintro t (ht | rfl | ht)
    · exact readAs_kind h (by decide) (by decide) (by decide) t ht
    · simp [hc]
    · exact plain_ok_kind (hp t ht) (by decide)
  unfold linkAct
  simp only [hscan, hhead, List.take_left, hfil, hunq, hcaret, h1, Bool.false_eq_true, if_false]
  rw [if_pos (by simp [isKind, hc])]
  simp [Line.drop, List.drop_append]

/-- a line with a link, once it is known that the first token begins one -/
theorem parse_link_readAs {env : Env} (hst : ∀ l, env.stops l = false) {subs : Substitutions}
    {pre address text shown post : List Tok} {name opening closing : Tok} {target : List Char} (hb : BracketLine pre name address opening text closing post)
    (h : ReadAs text shown) (hk : name.kind ≠ ForwardSlashes ∧ name.kind ≠ Plus)
    (hact : ∀ acc orig, act env subs [] .none acc none name ⟨address ++ opening :: (text ++ closing :: post), orig⟩ [] =
      linkAct acc none target ⟨text ++ closing :: post, orig⟩) :
    ∃ o, parse env subs [Line.new (pre ++ name :: (address ++ opening :: (text ++ closing :: post)))] = .ok o ∧
      o.nodes = textNode (textOf pre) ++ .wrap (.link target false true) (textNode (textOf shown)) :: textNode (textOf post) ∧ o.lines = [] := by
  have hshown : ∀ t ∈ shown, isTextOrEquals t = true := by
    cases h with
    | bare _ h => exact fun t ht => (h t ht).1
    | quoted _ _ _ h => exact h
  refine ⟨⟨textNode (textOf pre) ++ .wrap (.link target false true) (textNode (textOf shown)) :: textNode (textOf post), .none, []⟩,
    Run.parse (Run.enter (hst _) (start_ok hb.preOk hk.1) (run_plain (by simp [isKind, hk.2]) hb.preOk (Run.link (by simp [startsSeq])
      ((hact _ _).trans (linkAct_readAs h hb.closingOk hb.postOk)) (run_equals_line hst hshown) ?_))), rfl, rfl⟩
  have hnode : ∀ ns, linkNode target false ns = .wrap (.link target false true) ns := by
    intro ns
    unfold linkNode
    split <;> simp
  have := run_plain (env := env) (subs := subs) (ns := textNode (textOf pre) ++ [.wrap (.link target false true) (textNode (textOf shown))]) (rest := [])
    (orig := (pre ++ name :: (address ++ opening :: (text ++ closing :: post))).length) (ls := [])
    (o := ⟨textNode (textOf pre) ++ .wrap (.link target false true) (textNode (textOf shown)) :: textNode (textOf post), .none, []⟩) rfl (ts := post) (seg := []) hb.postOk ?_
  · simp only [List.append_nil] at this
    simp only [List.nil_append, Acc.push, commit_text, hnode]
    exact this
  · refine Run.lineEnd (by simp) ?_
    rw [← finish_behind (s := textOf post) rfl, List.nil_append]
    exact Run.finished

theorem parse_url_readAs {env : Env} (hst : ∀ l, env.stops l = false) {subs : Substitutions} (hm : subs.contains .macros = true)
    {pre address text shown post : List Tok} {name opening closing : Tok} (hb : BracketLine pre name address opening text closing post)
    (h : ReadAs text shown) (hk : name.kind = UriScheme) (hs : knownScheme name.lexeme = true) :
    ∃ o, parse env subs [Line.new (pre ++ name :: (address ++ opening :: (text ++ closing :: post)))] = .ok o ∧
      o.nodes = textNode (textOf pre) ++ .wrap (.link (name.lexeme ++ textOf address) false true) (textNode (textOf shown)) :: textNode (textOf post) ∧
      o.lines = [] := by
  refine parse_link_readAs hst hb h (by simp [hk]) fun acc orig => ?_
  have hcm := continuesMacro_line (name := name) (post := post) hb.addressOk hb.openingOk (readAs_kind h (by decide) (by decide) (by decide)) hb.closingOk
  obtain ⟨h1, h2⟩ := beforeBracket_line (more := text ++ closing :: post) hb.addressOk hb.openingOk
  have h3 : uriMacroAct acc none name ⟨address ++ opening :: (text ++ closing :: post), orig⟩ =
      linkAct acc none (name.lexeme ++ textOf address) ⟨text ++ closing :: post, orig⟩ := by
    unfold uriMacroAct
    rw [if_pos hs, h2]
    simp only [h1]
    rfl
  simp [act, attrsCase, replaceCase, macroCase, hk, hm, hcm, h3]

theorem parse_macro_readAs {env : Env} (hst : ∀ l, env.stops l = false) {subs : Substitutions} (hm : subs.contains .macros = true)
    {pre address text shown post : List Tok} {name opening closing : Tok} (hb : BracketLine pre name address opening text closing post)
    (h : ReadAs text shown) (hk : name.kind = MacroName) (hs : name.lexeme = "link:".toList) :
    ∃ o, parse env subs [Line.new (pre ++ name :: (address ++ opening :: (text ++ closing :: post)))] = .ok o ∧
      o.nodes = textNode (textOf pre) ++ .wrap (.link (textOf address) false true) (textNode (textOf shown)) :: textNode (textOf post) ∧ o.lines = [] := by
  refine parse_link_readAs hst hb h (by simp [hk]) fun acc orig => ?_
  have hcm := continuesMacro_line (name := name) (post := post) hb.addressOk hb.openingOk (readAs_kind h (by decide) (by decide) (by decide)) hb.closingOk
  obtain ⟨h1, h2⟩ := beforeBracket_line (more := text ++ closing :: post) hb.addressOk hb.openingOk
  have h3 : macroAct acc none name ⟨address ++ opening :: (text ++ closing :: post), orig⟩ [] =
      linkAct acc none (textOf address) ⟨text ++ closing :: post, orig⟩ := by
    unfold macroAct
    rw [if_neg (by rw [hs]; decide), if_neg (by rw [hs]; decide), if_pos hs, if_pos (noWs_url hb.addressOk hb.openingOk), if_neg, h2]
    · simp only [h1, plainOf_url hb.addressOk]
    · cases ha : address with
      | nil => simp [startsSeq, matchSeq, TSpec.sat, hb.openingOk]
      | cons a as =>
        have := url_kind (hb.addressOk a (by simp [ha])) (k := PreprocPassthru) (by decide)
        simp [startsSeq, matchSeq, TSpec.sat, this]
  simp [act, attrsCase, replaceCase, macroCase, hk, hm, hcm, h3]

end Verif.Inlines

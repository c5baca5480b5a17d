import Verif.Lemmas.CommentLines
import Verif.Spec.Urls
/-! Lemmas: bare URLs. -/
namespace Verif.Inlines
open Verif TokenKind

theorem plainTok_text {t : Tok} (h : isPlainTok t = true) : textKind t.kind = true ∧ (t.kind = Whitespace → t.len ≤ 1) ∧ (t.kind = Dots → t.len ≤ 1) := by
  simp only [isPlainTok, Bool.and_eq_true, Bool.or_eq_true, decide_eq_true_eq] at h
  obtain ⟨_, h⟩ := h
  rcases h with (((((h | h) | h) | h) | h) | h) | h
  · exact ⟨by rw [h]; rfl, by simp [h], by simp [h]⟩
  · exact ⟨by rw [h]; rfl, by simp [h], by simp [h]⟩
  · exact ⟨by rw [h.1]; rfl, by simp [Tok.len, h], by simp [h]⟩
  · exact ⟨by rw [h.1]; rfl, by simp [h], by simp [h]⟩
  · exact ⟨by rw [h.1]; rfl, by simp [h], by simp [Tok.len, h]⟩
  · exact ⟨by rw [h.1]; rfl, by simp [h], by simp [h]⟩
  · exact ⟨by rw [h.1]; rfl, by simp [h], by simp [h]⟩

theorem textKind_ne {k k' : TokenKind} (h : textKind k = true) (h' : textKind k' = false) : k ≠ k' := by
  rintro rfl; rw [h] at h'; cases h'

/-- plain tokens before the rest of the line -/
theorem run_plain {env : Env} {subs : Substitutions} {ns : List Node} {rest : List Tok} {orig : Nat} {ls : List Line} {o : Out} (hr : isKind Plus rest.head? = false) :
    ∀ {ts : List Tok} {seg : List Char}, (∀ t ∈ ts, isPlainTok t = true) →
      Run env subs [] ⟨ns, seg ++ textOf ts⟩ none .none (some ⟨rest, orig⟩) ls o →
      Run env subs [] ⟨ns, seg⟩ none .none (some ⟨ts ++ rest, orig⟩) ls o := by
  intro ts
  induction ts with
  | nil => intro seg _ h; simpa [textOf] using h
  | cons t ts ih =>
    intro seg hts h
    obtain ⟨h1, h2, h3⟩ := plainTok_text (hts t (by simp))
    refine Run.tok (by simp [startsSeq]) (act_text h1 h2 h3 ?_) (ih (fun u hu => hts u (by simp [hu])) ?_)
    · cases ts with
      | nil => exact hr
      | cons u us =>
        have := textKind_ne (k' := Plus) (plainTok_text (hts u (by simp))).1 (by decide)
        simp [isKind, this]
    · simpa [textOf] using h

theorem indexOfSeq_none_of {k : TokenKind} {l : List Tok} (h : ∀ t ∈ l, t.kind ≠ k) : indexOfSeq [.kind k] l = none := by
  induction l with
  | nil => simp [indexOfSeq]
  | cons t ts ih =>
    have := h t (by simp)
    simp [indexOfSeq, matchSeq, TSpec.sat, this, ih (fun u hu => h u (by simp [hu]))]

theorem stop_url {t : Tok} (h : isUrlTok t = true) : (![Whitespace, GreaterThan, OpenBracket, OpenParens, CloseParens, Bang, SemiColon, Colon,
    Star, QuestionMark].contains t.kind) = true := by
  simp only [isUrlTok, Bool.and_eq_true] at h
  revert h
  generalize t.kind = k
  cases k <;> simp

theorem takeWhile_append_all {α : Type} {p : α → Bool} {a b : List α} (h : ∀ x ∈ a, p x = true) : (a ++ b).takeWhile p = a ++ b.takeWhile p := by
  induction a with
  | nil => rfl
  | cons x xs ih => simp [h x (by simp), ih (fun y hy => h y (by simp [hy]))]

theorem urlLen_eq {url post : List Tok} (h0 : url ≠ []) (hu : ∀ t ∈ url, isUrlTok t = true) (hl : ∀ t, url.getLast? = some t → t.kind ≠ Dots)
    (he : endsUrl post = true) : urlLen (url ++ post) = url.length := by
  unfold urlLen
  rw [takeWhile_append_all (fun t ht => stop_url (hu t ht))]
  have hpos : 0 < url.length := List.length_pos_iff.2 h0
  have hlast : isKind Dots (url ++ post)[url.length - 1]? = false := by
    rw [List.getElem?_append_left (by omega), ← List.getLast?_eq_getElem?]
    cases hg : url.getLast? with
    | none => rfl
    | some t => simp [isKind, hl t hg]
  cases post with
  | nil =>
    simp only [List.takeWhile_nil, List.append_nil] at hlast ⊢
    rw [if_neg (by simp [hlast])]
  | cons t r =>
    simp only [endsUrl, Bool.or_eq_true, Bool.and_eq_true, decide_eq_true_eq] at he
    by_cases hd : t.kind = Dots
    · have hr : r.takeWhile (fun t => ![Whitespace, GreaterThan, OpenBracket, OpenParens, CloseParens, Bang, SemiColon, Colon,
          Star, QuestionMark].contains t.kind) = [] := by
        cases r with
        | nil => rfl
        | cons u us => simp [hd] at he; simp [he]
      have hs : (t :: r).takeWhile (fun t => ![Whitespace, GreaterThan, OpenBracket, OpenParens, CloseParens, Bang, SemiColon, Colon,
          Star, QuestionMark].contains t.kind) = [t] := by
        rw [List.takeWhile_cons, hr, if_pos (by rw [hd]; decide)]
      rw [hs]
      have hd' : isKind Dots (some t) = true := by simp [isKind, hd]
      simp [hd']
    · have hs : (t :: r).takeWhile (fun t => ![Whitespace, GreaterThan, OpenBracket, OpenParens, CloseParens, Bang, SemiColon, Colon,
          Star, QuestionMark].contains t.kind) = [] := by
        simp only [hd, false_and, or_false] at he
        rcases he with (he | he) | he <;> simp [he]
      rw [hs]
      simp only [List.append_nil]
      rw [if_neg]
      simp [hlast]

theorem parse_url {env : Env} (hst : ∀ l, env.stops l = false) {subs : Substitutions} (hm : subs.contains .macros = true) {pre url post : List Tok} {scheme : Tok}
    (h : UrlLine pre scheme url post) : ∃ o, parse env subs [Line.new (pre ++ scheme :: (url ++ post))] = .ok o ∧
      o.nodes = textNode (textOf pre) ++ .leaf (.link (scheme.lexeme ++ textOf url)) :: textNode (textOf post) ∧ o.lines = [] := by
  have hk := h.kind
  have hc : isComment (Line.new (pre ++ scheme :: (url ++ post))) = false := by
    unfold isComment Line.new
    cases hp : pre with
    | nil => simp [satOpt, TSpec.sat, hk]
    | cons t ts =>
      have := textKind_ne (k' := ForwardSlashes) (plainTok_text (h.preOk t (by simp [hp]))).1 (by decide)
      simp [satOpt, TSpec.sat, this]
  have hb : ∀ t ∈ url ++ post, t.kind ≠ OpenBracket := by
    intro t ht
    rcases List.mem_append.1 ht with ht | ht
    · have := stop_url (h.urlOk t ht)
      intro e; rw [e] at this; simp at this
    · exact textKind_ne (plainTok_text (h.postOk t ht)).1 (by decide)
  have hlen : urlLen (url ++ post) = url.length := urlLen_eq h.nonempty h.urlOk h.last h.ends
  have hne : textOf url ≠ [] := by
    obtain ⟨u, us, hu⟩ := List.exists_cons_of_ne_nil h.nonempty
    have := h.urlOk u (by simp [hu])
    simp only [isUrlTok, Bool.and_eq_true, Bool.not_eq_true', List.isEmpty_eq_false_iff] at this
    rw [hu]
    simp [textOf, this.1]
  have hks : knownScheme scheme.lexeme = true := by
    have := h.schemeOk
    simp only [isScheme, List.any_cons, List.any_nil, Bool.or_false, Bool.or_eq_true, decide_eq_true_eq] at this
    simp only [knownScheme, Bool.or_eq_true, decide_eq_true_eq]
    rcases this with h | h | h | h <;> simp [h]
  have hact : ∀ acc orig, act env subs [] .none acc none scheme ⟨url ++ post, orig⟩ [] = .next (acc.leaf (.link (scheme.lexeme ++ textOf url))) none ⟨post, orig⟩ := by
    intro acc orig
    have hnp : (url ++ post).isEmpty = false := by
      have := h.nonempty
      cases url <;> simp at this ⊢
    have hcm : continuesMacro scheme (url ++ post) = false := by
      simp [continuesMacro, indexOfSeq_none_of hb]
    have hurl : urlAct acc none scheme ⟨url ++ post, orig⟩ = .next (acc.leaf (.link (scheme.lexeme ++ textOf url))) none ⟨post, orig⟩ := by
      have hne' : (textOf url).isEmpty = false := by simpa using hne
      unfold textOf at hne' ⊢
      unfold urlAct
      simp only [hnp, hlen, List.take_left, hne', hks, Line.drop, List.drop_left, Bool.false_eq_true, if_false, if_true]
    simp [act, attrsCase, replaceCase, macroCase, attrRefCase, calloutCase, linkCase, emphasisCase, anchorCase, monoCase,
      curlyCase, hashCase, charCase, breakCase, lastCase, hk, hm, hcm, hurl]
  have hpost : isKind Plus ([] : List Tok).head? = false := rfl
  have hcommit : ∀ s : List Char, (⟨[], s⟩ : Acc).commit = ⟨textNode s, []⟩ := by
    intro s
    by_cases h0 : s = [] <;> simp [Acc.commit, textNode, h0]
  refine ⟨⟨textNode (textOf pre) ++ .leaf (.link (scheme.lexeme ++ textOf url)) :: textNode (textOf post), .none, []⟩, Run.parse (Run.enter (hst _) hc (run_plain (by simp [isKind, hk]) h.preOk (Run.tok (by simp [startsSeq]) (hact _ _) ?_))), rfl, rfl⟩
  · have := run_plain (env := env) (subs := subs) (ns := textNode (textOf pre) ++ [.leaf (.link (scheme.lexeme ++ textOf url))]) (rest := []) (orig := (pre ++ scheme :: (url ++ post)).length) (ls := [])
      (o := ⟨textNode (textOf pre) ++ .leaf (.link (scheme.lexeme ++ textOf url)) :: textNode (textOf post), .none, []⟩) hpost (ts := post) (seg := []) h.postOk ?_
    · simp only [List.append_nil] at this
      simp only [List.nil_append, Acc.leaf, Acc.push, hcommit]
      exact this
    · refine Run.lineEnd (by simp) ?_
      have hf : finish (joinNewline ⟨textNode (textOf pre) ++ [.leaf (.link (scheme.lexeme ++ textOf url))], [] ++ textOf post⟩ []) none =
          textNode (textOf pre) ++ .leaf (.link (scheme.lexeme ++ textOf url)) :: textNode (textOf post) := by
        simp only [joinNewline, List.isEmpty_nil, if_true, finish, Acc.unused, List.nil_append]
        by_cases h0 : textOf post = []
        · simp only [Acc.commit, h0, if_true, textNode]
          rw [trimmed_clean (by simp)]
        · simp only [Acc.commit, h0, if_false, textNode, List.getLast?_concat]
          rw [trimmed_clean (by simp)]
          simp
      rw [← hf]
      exact Run.finished

end Verif.Inlines

import Verif.Spec.Paragraphs
import Verif.Lemmas.ListItems
/-! Lemmas: the tokens of the lines of paragraphs. -/
namespace Verif.Paragraphs
open Verif Verif.Lexer Verif.Directives Verif.LineKinds Verif.Verbatim TokenKind

variable {plugins : List (List UInt8)}

/-! ### labels -/

theorem nextToken_word {pre line post : List UInt8} {b : UInt8} {s : Step} {p : Nat} (h : Around pre (b :: line) post) (hb : isLetter b = true)
    (hs : nextToken (pre ++ (b :: line) ++ post) plugins pre.length = some (some s, p)) : word (pre ++ (b :: line) ++ post) plugins (pre.length + 1) = some s := by
  have h0 : (pre ++ (b :: line) ++ post)[pre.length]? = some b := by simp
  unfold nextToken at hs
  simp only at hs
  split at hs
  · rename_i len c hd
    have := (delimiter_first h hd).2
    obtain ⟨_, ⟨c, hc, _, e⟩ | ⟨e, _⟩⟩ := first_delim this
    · have hbc : b ∈ List.replicate len c := by rw [← e]; simp
      rw [List.mem_replicate] at hbc
      have hall : ∀ x ∈ bs "_-*=.+/", isLetter x = false := by decide
      rw [hbc.2, hall _ hc] at hb
      cases hb
    · have := congrArg List.head? e
      simp at this
      subst this
      exact absurd hb (by decide)
  · rw [h0] at hs
    simp only [letter_table hb, Option.map_eq_some_iff] at hs
    obtain ⟨s', hs, he⟩ := hs
    injection he with he he2
    cases he
    unfold otherArm at hs
    have hsp : isSpace b = false := by
      rw [← Bool.not_eq_true, isSpace_iff]
      rintro (rfl | rfl | rfl | rfl) <;> revert hb <;> decide
    have hdg : isDigit b = false := by
      simp only [isLetter, Bool.and_eq_true, Bool.not_eq_true'] at hb
      exact hb.2
    have ne : ∀ {c}, isLetter c = false → b ≠ c := letter_ne hb
    rw [if_neg (by simp [hsp]), if_neg (ne (by decide)), if_neg (ne (by decide)), if_neg (ne (by decide)), if_neg (fun h => ne (by decide) h.1),
      if_neg (by simp [hdg]), if_neg (by rintro (h | h) <;> exact ne (by decide) h), if_neg (fun h => ne (by decide) h.1),
      if_neg (by rintro (h | h | h) <;> exact ne (by decide) h), if_neg (fun h => ne (by decide) h.1)] at hs
    exact hs

/-- the first token of a line that starts with a letter, by what `word` gives -/
theorem word_lexed {bol : Bool} {b : UInt8} {line : List UInt8} {toks : List Tok} (h : LexAt plugins bol (b :: line) toks) (hb : isLetter b = true) :
    ∃ pre post t ts s, Around pre (b :: line) post ∧ toks = t :: ts ∧ word (pre ++ (b :: line) ++ post) plugins (pre.length + 1) = some s ∧ t.kind = s.kind ∧
      pre.length < s.stop ∧ t.lexeme = (b :: line).take (s.stop - pre.length) := by
  obtain ⟨pre, post, fuel, q, ha, hbol, h⟩ := h
  cases fuel with
  | zero => simp [lexLine] at h
  | succ fuel =>
    have hb' : (pre ++ (b :: line) ++ post)[pre.length]? = some b := by simp
    obtain ⟨s, hs, hg⟩ := nextToken_good (plugins := plugins) (lt_length_of_getElem? hb')
    obtain ⟨k, hk0, hk, hst, hsp, hsl, hok⟩ := first_token ha.post ha.line hs hg
    unfold lexLine at h
    rw [if_neg (by
      rw [hb']
      have := ha.line b (by simp)
      intro h
      rcases eol_iff.1 h with h | h | h
      · cases h
      · exact this.1 (Option.some.inj h)
      · exact this.2 (Option.some.inj h)), hs] at h
    simp only [hsl, Option.bind_eq_bind, Option.bind_some, Option.bind_eq_some_iff] at h
    obtain ⟨⟨ts, q'⟩, h1, h2⟩ := h
    cases h2
    refine ⟨pre, post, _, _, s, ha, rfl, nextToken_word ha hb hs, rfl, by omega, ?_⟩
    obtain rfl : k = s.stop - pre.length := by omega
    rfl

theorem label_lexed {bol : Bool} {a : Admonition} {rest : List UInt8} {toks : List Tok} (h : LexAt plugins bol (encode a.label ++ (58 : UInt8) :: 32 :: rest) toks)
    (hp : encode a.label ∉ plugins) : ∃ t ts, toks = t :: ts ∧ t.kind = Word ∧ t.lexeme = encode a.label ∧ LexAt plugins false ((58 : UInt8) :: 32 :: rest) ts := by
  obtain ⟨b, lab, he⟩ : ∃ b l, encode a.label = b :: l := by
    cases a <;> exact ⟨_, _, rfl⟩
  have hb : isLetter b = true := by
    cases a <;> (cases he; decide)
  have hall : ∀ x ∈ encode a.label, (!wordBoundary true x) = true := by cases a <;> decide
  have hlen : (encode a.label).length ≤ 9 ∧ 3 ≤ (encode a.label).length := by cases a <;> decide
  have hcons : encode a.label ++ (58 : UInt8) :: 32 :: rest = b :: (lab ++ (58 : UInt8) :: 32 :: rest) := by rw [he]; rfl
  obtain ⟨pre, post, t, ts, s, ha, rfl, hw, hk, hlt, hlx⟩ := word_lexed (hcons ▸ h) hb
  rw [← hcons] at hw hlx
  have hscan := ha.scan (f := fun b => !wordBoundary true b) (by decide) (by simp [letter_word hb])
  rw [← hcons] at hscan
  have htw : ((encode a.label ++ (58 : UInt8) :: 32 :: rest).takeWhile fun b => !wordBoundary true b) = encode a.label :=
    (takeWhile_append_stop (p := fun b => !wordBoundary true b) hall (by intro x hx; cases hx; decide)).1
  rw [htw] at hscan
  have hsub : ∀ i, (pre ++ (encode a.label ++ (58 : UInt8) :: 32 :: rest) ++ post)[pre.length + (encode a.label).length + i]? = ((58 : UInt8) :: 32 :: (rest ++ post))[i]? := by
    intro i
    have : pre ++ (encode a.label ++ (58 : UInt8) :: 32 :: rest) ++ post = (pre ++ encode a.label) ++ (58 : UInt8) :: 32 :: (rest ++ post) := by simp
    rw [this, List.getElem?_append_right (by simp)]
    congr 1
    simp
  have hs : s.kind = Word ∧ s.stop = pre.length + (encode a.label).length := by
    unfold word at hw
    simp only [hscan, Option.bind_eq_bind, Option.bind_eq_some_iff] at hw
    obtain ⟨d, hd, hw⟩ := hw
    have hd' : d = encode a.label := by
      simp only [slice] at hd
      split at hd
      · cases hd
        simp
      · cases hd
    have hsub0 : (pre ++ (encode a.label ++ (58 : UInt8) :: 32 :: rest) ++ post)[pre.length + (encode a.label).length]? = some (ch ':') := hsub 0
    rw [if_pos hsub0, if_neg (by
      rw [hsub 1]
      rintro ⟨h, _⟩
      exact absurd (Option.some.inj h) (by decide))] at hw
    simp only [Option.bind_eq_some_iff] at hw
    obtain ⟨x, _, hw⟩ := hw
    have hm : wordMacro (pre ++ (encode a.label ++ (58 : UInt8) :: 32 :: rest) ++ post) plugins (pre.length + 1 - 1) (pre.length + (encode a.label).length) d =
        ⟨Word, pre.length + 1 - 1, pre.length + (encode a.label).length, pre.length + (encode a.label).length⟩ := by
      subst hd'
      unfold wordMacro
      have hu : continuesUriScheme (pre ++ (encode a.label ++ (58 : UInt8) :: 32 :: rest) ++ post) (pre.length + (encode a.label).length) (encode a.label) = none := by
        unfold continuesUriScheme
        rw [if_neg (by
          have : ([bs "http", bs "https", bs "ftp", bs "mailto", bs "irc"].contains (encode a.label)) = false := by cases a <;> decide
          rw [this]; simp), if_neg (by
          have : (encode a.label == bs "file") = false := by cases a <;> decide
          rw [this]; simp)]
      rw [hu]
      have h1 : isMacroName plugins (encode a.label) = false := by
        have : builtinMacros.contains (encode a.label) = false := by cases a <;> decide
        unfold isMacroName
        rw [this, Bool.false_or]
        simpa using hp
      have h2 : (bs "footnote").isSuffixOf (encode a.label) = false := by cases a <;> decide
      have h3 : (bs "indexterm").isSuffixOf (encode a.label) = false := by cases a <;> decide
      simp only [h1, h2, h3, Bool.false_eq_true, if_false]
    rw [hm] at hw
    split at hw <;> (cases hw; exact ⟨rfl, rfl⟩)
  have hlx' : t.lexeme = encode a.label := by
    rw [hlx, hs.2, Nat.add_sub_cancel_left, List.take_left]
  refine ⟨t, ts, rfl, hk.trans hs.1, hlx', ?_⟩
  obtain ⟨k, h0, hk1, hf, he1, hrest⟩ := uncons h
  have : k = (encode a.label).length := by
    have := congrArg List.length (he1.symm.trans hlx')
    rw [List.length_take] at this
    omega
  rw [this, List.drop_left] at hrest
  exact hrest

/-! ### lines -/

/-- the tokens are those of the characters, at the start of a line or behind it -/
structure Seen (plugins : List (List UInt8)) (bol : Bool) (toks : List Tok) (s : List Char) : Prop where
  at_ : LexAt plugins bol (encode s) toks
  ok : ∀ t ∈ toks, TokOk t

theorem Seen.of {toks : List Tok} {s : List Char} (h : LineOf plugins toks (encode s)) : Seen plugins true toks s := ⟨Verif.Lexer.LineOf.at h, h.ok⟩

theorem Seen.flat {bol : Bool} {toks : List Tok} {s : List Char} (h : Seen plugins bol toks s) : toks.flatMap Tok.lexeme = encode s := LexAt.text _ (Nat.le_refl _) h.at_

theorem Seen.text {bol : Bool} {toks : List Tok} {s : List Char} (h : Seen plugins bol toks s) : lineText toks = s := lineText_eq h.flat

theorem Seen.ne {bol : Bool} {toks : List Tok} {s : List Char} (h : Seen plugins bol toks s) (hs : s ≠ []) : ∃ t ts, toks = t :: ts :=
  some_left h.at_ (encode_ne hs)

theorem head_encode {c : Char} {s : List Char} (hc : c.toNat < 128) (h : (encode s).head? = some (ch c)) : s.head? = some c := by
  cases s with
  | nil => cases h
  | cons d s =>
    rw [encode, List.flatMap_cons] at h
    obtain ⟨b, l, e⟩ := enc_cons d
    rw [e] at h
    cases h
    have := (enc_head (c := d) (d := c) (l := []) (r := l) hc (by rw [List.append_nil]; exact e)).1
    rw [this]; rfl

theorem head_bytes {b : UInt8} {s : List Char} {cs : List Char} (hb : b ∈ cs.map ch) (hcs : ∀ c ∈ cs, c.toNat < 128) (h : (encode s).head? = some b) : ∃ c ∈ cs, s.head? = some c := by
  obtain ⟨c, hc, rfl⟩ := List.mem_map.1 hb
  exact ⟨c, hc, head_encode (hcs c hc) h⟩

/-- the kinds of the first token that matter here -/
theorem Seen.not_open {bol : Bool} {t : Tok} {ts : List Tok} {s : List Char} (h : Seen plugins bol (t :: ts) s) (hs : s.head? ≠ some '[') : t.kind ≠ OpenBracket := by
  intro hk
  obtain ⟨k, _, _, hf, _⟩ := uncons h.at_
  exact hs (head_encode (by decide) (first_openB (hk ▸ hf)).1)

theorem Seen.not_delim {bol : Bool} {t : Tok} {ts : List Tok} {s : List Char} (h : Seen plugins bol (t :: ts) s)
    (hs : bol = false ∨ ∀ c, s.head? = some c → c ∉ "-_*=.+/`".toList) : t.kind ≠ DelimiterLine := by
  intro hk
  obtain ⟨k, h0, _, hf, _⟩ := uncons h.at_
  obtain ⟨hb, hd⟩ := first_delim (hk ▸ hf)
  rcases hs with hs | hs
  · rw [hb] at hs; cases hs
  · have : ∃ b ∈ "-_*=.+/`".toList.map ch, (encode s).head? = some b := by
      rcases hd with ⟨c, hc, hk', e⟩ | ⟨e, _⟩
      · refine ⟨c, ?_, ?_⟩
        · revert hc
          have : ∀ c ∈ bs "_-*=.+/", c ∈ "-_*=.+/`".toList.map ch := by decide
          exact this c
        · rw [e]
          cases k with
          | zero => omega
          | succ k => rfl
      · refine ⟨ch '`', by decide, ?_⟩
        have e' := congrArg List.head? e
        rw [List.head?_take] at e'
        exact e'.trans (by decide)
    obtain ⟨b, hb, hh⟩ := this
    obtain ⟨c, hc, hh⟩ := head_bytes hb (by decide) hh
    exact hs c hh hc

theorem Seen.not_space {bol : Bool} {t : Tok} {ts : List Tok} {s : List Char} (h : Seen plugins bol (t :: ts) s) (hs : ∀ c, s.head? = some c → c ∉ whites) : t.kind ≠ Whitespace := by
  intro hk
  obtain ⟨k, h0, _, hf, _⟩ := uncons h.at_
  obtain ⟨⟨b, hb, hsp⟩, _⟩ := first_space (hk ▸ hf)
  rw [isSpace_iff] at hsp
  obtain ⟨c, hc, hh⟩ := head_bytes (cs := whites) (by rcases hsp with rfl | rfl | rfl | rfl <;> decide) (by decide) hb
  exact hs c hh hc

theorem Seen.not_dashes {bol : Bool} {t : Tok} {ts : List Tok} {s : List Char} (h : Seen plugins bol (t :: ts) s) (hs : s.head? ≠ some '-') : t.kind ≠ Dashes := by
  intro hk
  obtain ⟨k, _, _, hf, _⟩ := uncons h.at_
  exact hs (head_encode (by decide) (first_dashes (hk ▸ hf)).1)

theorem Seen.not_directive {bol : Bool} {t : Tok} {ts : List Tok} {s : List Char} (h : Seen plugins bol (t :: ts) s) (hs : ¬ [':', ':'] <:+: s) : t.kind ≠ Directive := by
  intro hk
  obtain ⟨d, _, e⟩ := (h.ok t (by simp)).dir hk
  apply hs
  refine enc_infix (s := [':', ':']) (by decide) (by simp) ?_
  rw [← h.flat, List.flatMap_cons, e]
  exact ⟨d, ts.flatMap Tok.lexeme, by simp [ch]⟩

theorem Seen.no_term {bol : Bool} {toks : List Tok} {s : List Char} (h : Seen plugins bol toks s) (hs : NoTerm s) : ∀ u ∈ toks, u.kind ≠ TermDelimiter := by
  intro u hu hku
  rcases term_infix h.at_ hu hku with h1 | h1
  · exact hs.1 (enc_infix (s := [':', ':']) (by decide) (by simp) h1)
  · exact hs.2 (enc_infix (s := [';', ';']) (by decide) (by simp) h1)

/-- a byte that starts every token it is in -/
theorem cut {y : List UInt8} {c : UInt8} : ∀ (n : Nat) {b : Bool} {x : List UInt8} {toks : List Tok}, x.length ≤ n → LexAt plugins b (x ++ c :: y) toks → (∀ t ∈ toks, c ∉ t.lexeme.drop 1) →
    ∃ a t r b', toks = a ++ t :: r ∧ a.flatMap Tok.lexeme = x ∧ LexAt plugins b' (c :: y) (t :: r) ∧ (b = false → b' = false) := by
  intro n
  induction n with
  | zero =>
    intro b x toks hx h hm
    have : x = [] := List.length_eq_zero_iff.1 (by omega)
    subst this
    obtain ⟨t, ts, rfl⟩ := some_left h (by simp)
    exact ⟨[], t, ts, b, rfl, rfl, h, id⟩
  | succ n ih =>
    intro b x toks hx h hm
    obtain ⟨t, ts, rfl⟩ := some_left h (by simp)
    cases hxe : x with
    | nil => subst hxe; exact ⟨[], t, ts, b, rfl, rfl, h, id⟩
    | cons x0 x1 =>
      obtain ⟨k, h0, hk, hf, he, hr⟩ := uncons h
      have hle : k ≤ x.length := by
        false_or_by_contra
        rename_i hgt
        apply hm t (by simp)
        have hk1 : k = (x.length + 1) + (k - (x.length + 1)) := by omega
        rw [he, hxe, List.cons_append]
        obtain ⟨j, rfl⟩ : ∃ j, k = j + 1 := ⟨k - 1, by omega⟩
        rw [List.take_succ_cons, List.drop_succ_cons, List.drop_zero]
        rw [hxe, List.length_cons] at hgt
        have : j = x1.length + ((j - x1.length - 1) + 1) := by omega
        rw [this, List.take_length_add_append, List.take_succ_cons]
        simp
      rw [List.drop_append_of_le_length hle] at hr
      obtain ⟨a, u, r, b', e1, e2, e3, e4⟩ := ih (by rw [List.length_drop]; omega) hr (fun u hu => hm u (by simp [hu]))
      refine ⟨t :: a, u, r, b', by rw [e1]; rfl, ?_, e3, fun _ => e4 rfl⟩
      rw [List.flatMap_cons, e2, he, List.take_append_of_le_length hle, List.take_append_drop, hxe]

/-- every token is the first one of something -/
theorem first_of {t : Tok} : ∀ {toks : List Tok} {bol : Bool} {line : List UInt8}, LexAt plugins bol line toks → t ∈ toks →
    ∃ b l k, 0 < k ∧ k ≤ l.length ∧ First b l t.kind k ∧ t.lexeme = l.take k := by
  intro toks
  induction toks with
  | nil => intro _ _ _ h; cases h
  | cons u us ih =>
    intro bol line h hm
    obtain ⟨k, h0, h1, h2, h3, h4⟩ := uncons h
    rcases List.mem_cons.1 hm with rfl | hm
    · exact ⟨bol, line, k, h0, h1, h2, h3⟩
    · exact ih h4 hm

end Verif.Paragraphs

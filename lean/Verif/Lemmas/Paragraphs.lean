import Verif.Lemmas.ParaLines
/-! Lemmas: what is read of paragraphs that are written as specified. -/
namespace Verif.Paragraphs
open Verif Verif.Lexer Verif.Directives Verif.LineKinds Verif.Verbatim TokenKind

variable {plugins : List (List UInt8)}

/-! ### lines of text -/

/-- a line of text: a word, which is no label, and no term in the line -/
structure WordLine (toks : List Tok) : Prop where
  head : kindAt toks 0 = some Word
  label : startsSeq [Word, Colon, Whitespace] toks = false
  term : ∀ u ∈ toks, u.kind ≠ TermDelimiter

theorem Seen.word {bol : Bool} {toks : List Tok} {s : List Char} (h : Seen plugins bol toks s) (hs : TextLine s) : WordLine toks := by
  obtain ⟨c, hc, hh⟩ := hs.first
  obtain ⟨c', cs, rfl⟩ : ∃ c cs, s = c :: cs := by
    cases s with
    | nil => cases hh
    | cons c cs => exact ⟨c, cs, rfl⟩
  cases hh
  obtain ⟨hlet, hasc⟩ := letter_ch hc
  have henc : encode (c :: cs) = ch c :: encode cs := by
    rw [encode, List.flatMap_cons, enc_ascii hasc]; rfl
  have hcol : ch ':' ∉ (encode (c :: cs)).takeWhile (· != 32) := fun hm => hs.word (word_encode hm)
  have hat : ch '@' ∉ encode (c :: cs) := fun hm => hs.chars _ (LineKinds.mem_encode (by decide) hm) (by simp)
  have hterm := h.no_term ⟨hs.colons, hs.semicolons⟩
  have hat' := h.at_
  rw [henc] at hat' hcol hat
  obtain ⟨t, ts, rfl, hk, hlx⟩ := letter_lexed hat' hlet hcol hat
  refine ⟨by simp [kindAt, hk], ?_, hterm⟩
  rw [← Bool.not_eq_true]
  intro hq
  obtain ⟨_, _, e, _, hq⟩ := startsSeq_cons.1 hq
  cases e
  obtain ⟨u, us, rfl, hu, _⟩ := startsSeq_cons.1 hq
  obtain ⟨k, _, hkl, _, e1, g1⟩ := uncons hat'
  obtain ⟨k', _, _, hf, _⟩ := uncons g1
  have hhd := first_colon (hu ▸ hf)
  apply hcol
  obtain ⟨r, hr⟩ : ∃ r, (ch c :: encode cs).drop k = ch ':' :: r := by
    cases hd : (ch c :: encode cs).drop k with
    | nil => rw [hd] at hhd; cases hhd
    | cons x r => rw [hd] at hhd; cases hhd; exact ⟨r, rfl⟩
  rw [← List.take_append_drop k (ch c :: encode cs), hr, ← e1, List.takeWhile_append_of_pos]
  · simp [ch]
  · intro y hy
    rw [hlx] at hy
    have := List.all_takeWhile (p := fun b => !wordBoundary true b) (l := ch c :: encode cs)
    rw [List.all_eq_true] at this
    have := this y hy
    rw [bne_iff_ne]
    rintro rfl
    revert this
    decide

/-- the first lines of the paragraphs here -/
def firstKinds : List TokenKind := [Word, DoubleQuote, Whitespace, GreaterThan]

structure FirstLine (l : Line) : Prop where
  comment : comment l = false
  title : isTitle l.toks = false
  anchor : anchor l = false
  attrs : attrList l = false
  heading : headingLevel l.toks = none
  stops : stops l = false

theorem firstLine {t : Tok} {ts : List Tok} {w : Bool} (h : t.kind ∈ firstKinds) : FirstLine ⟨t :: ts, w⟩ := by
  have e : ∀ K ∈ ([ForwardSlashes, Dots, OpenBracket, EqualSigns, Hash, DelimiterLine] : List TokenKind), t.kind ≠ K := by
    intro K hK he
    rw [he] at h
    revert h
    have : ∀ K ∈ ([ForwardSlashes, Dots, OpenBracket, EqualSigns, Hash, DelimiterLine] : List TokenKind), K ∉ firstKinds := by decide
    exact this K hK
  simp only [List.mem_cons, List.not_mem_nil, or_false, forall_eq_or_imp, forall_eq] at e
  obtain ⟨e1, e2, e3, e4, e5, e6⟩ := e
  refine ⟨?_, ?_, ?_, ?_, ?_, ?_⟩
  · simp [Paragraphs.comment, isComment, e1]
  · simp [isTitle, e2]
  · simp [Paragraphs.anchor, startsSeq, Ne.symm e3]
  · simp [attrList, isAttrList, kindAt, e3]
  · unfold headingLevel
    rw [if_neg (by simp [startsSeq, Ne.symm e4]), if_neg (by simp [kindAt, e5])]
  · simp [Paragraphs.stops, attrList, isAttrList, Paragraphs.anchor, startsSeq, kindAt, e3, e6, Ne.symm e3]

theorem other_none {word : Char → Bool} {t : Tok} {ts : List Tok} {w : Bool} (h : t.kind ∈ firstKinds) (hm : marker word ⟨t :: ts, w⟩ = none) : otherBlock word ⟨t :: ts, w⟩ = false := by
  have e : ∀ K ∈ ([MacroName, DelimiterLine, SingleQuote, Star, Dashes, Pipe, Colon, Bang, Comma, LessThan] : List TokenKind), t.kind ≠ K := by
    intro K hK he
    rw [he] at h
    revert h
    have : ∀ K ∈ ([MacroName, DelimiterLine, SingleQuote, Star, Dashes, Pipe, Colon, Bang, Comma, LessThan] : List TokenKind), K ∉ firstKinds := by decide
    exact this K hK
  simp only [List.mem_cons, List.not_mem_nil, or_false, forall_eq_or_imp, forall_eq] at e
  obtain ⟨e1, e2, e3, e4, e5, e6, e7, e8, e9, e10⟩ := e
  have hbrk : breakOf (t :: ts) = none := by
    rw [breakOf_eq]
    simp [isThree, isDashes, isFive, startsSeq, Ne.symm e3, Ne.symm e4, Ne.symm e5, e5, Ne.symm e10, tok1]
  simp [otherBlock, hm, hbrk, startsSeq, kindAt, e2, e6, e7, e8, e9, Ne.symm e1]

theorem marker_none {word : Char → Bool} {t : Tok} {ts : List Tok} {w : Bool} (h : t.kind ∈ [Word, DoubleQuote, GreaterThan]) (ht : ∀ u ∈ t :: ts, u.kind ≠ TermDelimiter) :
    marker word ⟨t :: ts, w⟩ = none := by
  have e : ∀ K ∈ ([Whitespace, Star, Dots, Dashes, CalloutNumber, Digits, EqualSigns] : List TokenKind), t.kind ≠ K := by
    intro K hK he
    rw [he] at h
    revert h
    have : ∀ K ∈ ([Whitespace, Star, Dots, Dashes, CalloutNumber, Digits, EqualSigns] : List TokenKind), K ∉ [Word, DoubleQuote, GreaterThan] := by decide
    exact this K hK
  simp only [List.mem_cons, List.not_mem_nil, or_false, forall_eq_or_imp, forall_eq] at e
  obtain ⟨e1, e2, e3, e4, e5, e6, e7⟩ := e
  have hc := (firstLine (ts := ts) (w := w) (show t.kind ∈ firstKinds by simp [firstKinds] at h ⊢; rcases h with h | h | h <;> simp [h])).comment
  unfold marker
  rw [if_neg (by simp [hc, kindAt, e7]), if_neg (by simp [kindAt, e1])]
  simp [markerAt, e2, e3, e4, e5, e6, termMarker_none ht]

theorem supported_of {bol w : Bool} {t : Tok} {ts : List Tok} {s : List Char} (h : Seen plugins bol (t :: ts) s) (hc : Chars s) (hh : s.head? ≠ some ':') (hd : t.kind ≠ Directive) :
    supported ⟨t :: ts, w⟩ = true := by
  have a1 : '{' ∉ s := fun hm => hc _ hm (by simp)
  have a2 : '@' ∉ s := fun hm => hc _ hm (by simp)
  simp [supported, h.text, inModel, a1, a2, hh, kindAt, hd]

/-- a further line of a paragraph -/
structure MoreLine (l : Line) : Prop where
  ne : l.toks ≠ []
  supported : supported l = true
  stops : stops l = false
  dashes : kindAt l.toks 0 ≠ some Dashes

theorem stops_of {bol w : Bool} {t : Tok} {ts : List Tok} {s : List Char} (h : Seen plugins bol (t :: ts) s) (hb : bol = false ∨ ∀ c, s.head? = some c → c ∉ "-_*=.+/`".toList)
    (ho : s.head? ≠ some '[') {us : List Tok} : stops ⟨t :: us, w⟩ = false := by
  have e3 := h.not_open ho
  have e6 := h.not_delim hb
  simp [Paragraphs.stops, attrList, isAttrList, Paragraphs.anchor, startsSeq, kindAt, e3, e6, Ne.symm e3]

theorem Seen.more {bol w : Bool} {toks : List Tok} {s : List Char} (h : Seen plugins bol toks s) (hs : More s) : MoreLine ⟨toks, w⟩ := by
  obtain ⟨c, hc, hn⟩ := hs.first
  simp only [List.mem_append, not_or] at hn
  obtain ⟨t, ts, rfl⟩ := h.ne (by rintro rfl; cases hc)
  refine ⟨by simp, supported_of h hs.chars ?_ (h.not_directive hs.colons), stops_of h (.inr ?_) ?_, ?_⟩
  · rw [hc]; rintro ⟨⟩; exact hn.1 (by decide)
  · intro d hd
    rw [hc] at hd
    cases hd
    intro hm
    refine hn.1 ?_
    revert hm
    have : ∀ c ∈ "-_*=.+/`".toList, c ∈ "[:-_*=.+/`".toList := by decide
    exact this c
  · rw [hc]; rintro ⟨⟩; exact hn.1 (by decide)
  · have := h.not_dashes (by rw [hc]; rintro ⟨⟩; exact hn.1 (by decide))
    simpa [kindAt] using this

/-! ### blocks of text -/

theorem span_all {ls : List Line} (h : ∀ l ∈ ls, stops l = false) : (ls.takeWhile fun l => !stops l) = ls ∧ (ls.dropWhile fun l => !stops l) = [] := by
  have h' : ∀ l ∈ ls, (!stops l) = true := by intro l hl; simp [h l hl]
  have e1 := List.takeWhile_append_of_pos (l₂ := []) h'
  have e2 := List.dropWhile_append_of_pos (l₂ := []) h'
  simp only [List.append_nil] at e1 e2
  rw [e1, e2]
  exact ⟨by simp, by simp⟩

theorem inline_all {l : Line} {ls : List Line} (hne : l.toks ≠ []) (h : ∀ m ∈ l :: ls, stops m = false) : inlineLines (l :: ls) = some (l :: ls, []) := by
  rw [inlineLines, if_neg hne, (span_all h).1, (span_all h).2]

theorem WordLine.cons {toks : List Tok} (h : WordLine toks) : ∃ t ts, toks = t :: ts ∧ t.kind = Word := by
  have := h.head
  cases toks with
  | nil => cases this
  | cons t ts => exact ⟨t, ts, rfl, by simpa [kindAt] using this⟩

theorem trim_none {l : Line} {ls : List Line} (h : kindAt l.toks 0 ≠ some Whitespace) : trimUniform (l :: ls) = none := by
  unfold trimUniform
  split
  · rfl
  · rename_i t ht
    rw [if_neg]
    rintro ⟨hk, _⟩
    apply h
    simp only [List.head?_cons, Option.bind_some] at ht
    simp [kindAt, ← List.head?_eq_getElem?, ht, hk]

theorem paragraph_text {style : Option Kind} {l : Line} {more : List Line} (hw : WordLine l.toks) (hm : ∀ m ∈ more, MoreLine m) :
    paragraph style (l :: more) = .ok (some (.text (style.getD .paragraph) (l :: more)), []) := by
  obtain ⟨t, ts, e, hk⟩ := hw.cons
  obtain ⟨toks, w⟩ := l
  cases e
  have hst := (firstLine (ts := ts) (w := w) (show t.kind ∈ firstKinds by rw [hk]; decide)).stops
  have hctx : context style (⟨t :: ts, w⟩ :: more) = (style.getD .paragraph, ⟨t :: ts, w⟩ :: more) := by
    unfold context
    rw [trim_none (by simp [kindAt, hk])]
    cases style with
    | some k => rfl
    | none =>
      simp only [label, hw.label, Bool.false_eq_true, if_false]
      rw [if_neg (by simp [kindAt, hk])]
      rfl
  unfold paragraph
  rw [hctx]
  simp only
  rw [inline_all (by simp) (by
    intro m hm'
    rcases List.mem_cons.1 hm' with rfl | h
    · exact hst
    · exact (hm m h).stops)]

theorem getLast_mem {α : Type} {l : List α} {a b c : α} (h : (a :: b :: l).getLast? = some c) : c ∈ b :: l := by
  rw [List.getLast?_cons_cons] at h
  exact List.mem_of_getLast? h

theorem quoted_text {md : Bool} {l : Line} {more : List Line} (hw : kindAt l.toks 0 ≠ some DoubleQuote) (hm : ∀ m ∈ more, kindAt m.toks 0 ≠ some Dashes) : isQuoted md (l :: more) = false := by
  unfold isQuoted
  cases md with
  | false => simp [hw]
  | true =>
    cases more with
    | nil => simp
    | cons m ms =>
      cases hl : (l :: m :: ms).getLast? with
      | none => simp
      | some x =>
        have hx := hm x (getLast_mem hl)
        have : startsSeq [Dashes, Whitespace] x.toks = false := by
          rw [← Bool.not_eq_true]
          intro h
          obtain ⟨t, ts, e, hk, _⟩ := startsSeq_cons.1 h
          exact hx (by simp [e, kindAt, hk])
        simp [this]

theorem block_text {word : Char → Bool} {n : Nat} {md : Bool} {style : Option (List UInt8)} {ls : List Line} {l : Line} {more : List Line} (hs : ls.all supported = true)
    (hc : ls.head?.any comment = false) (hmeta : chunkMeta ls = .ok (style, l :: more)) (hw : WordLine l.toks) (hm : ∀ m ∈ more, MoreLine m) :
    block word (n + 1) md ls = .ok (some (.text ((style.bind derive).getD .paragraph) (l :: more)), [], md) := by
  have hp := paragraph_text (style := style.bind derive) hw hm
  obtain ⟨t, ts, e, hk⟩ := hw.cons
  have hq := quoted_text (md := md) (l := l) (more := more) (by rw [hw.head]; decide) (fun m h => (hm m h).dashes)
  obtain ⟨toks, w⟩ := l
  cases e
  have hf := firstLine (ts := ts) (w := w) (show t.kind ∈ firstKinds by rw [hk]; decide)
  have ho := other_none (word := word) (w := w) (show t.kind ∈ firstKinds by rw [hk]; decide) (marker_none (by simp [hk]) hw.term)
  unfold block
  rw [if_neg (by simp [hs, hc]), hmeta]
  simp only [Bind.bind, Except.bind, hf.comment, hf.heading, ho, hq, Bool.false_eq_true, if_false, pure, Except.pure]
  rw [if_neg (by simp [startsSeq, hk])]
  rw [hp]

theorem meta_none {l : Line} {ls : List Line} (h : l.whole = false ∨ FirstLine l) : chunkMeta (l :: ls) = .ok (none, l :: ls) := by
  rw [chunkMeta]
  rcases h with h | h
  · rw [if_pos (by simp [h])]
  · split
    · rfl
    · rw [if_neg (by simp [h.title, h.anchor]), if_neg (by simp [h.attrs])]

theorem comment_of {l : Line} {ls : List Line} (h : l.whole = false ∨ FirstLine l) : (l :: ls).head?.any comment = false := by
  rcases h with h | h
  · simp [comment, h]
  · simpa using h.comment

/-! ### the forms -/

theorem seen_all {C : List (List Tok)} : ∀ {lines : List (List Char)}, Pairs (LineOf plugins) C (lines.map encode) → Pairs (Seen plugins true) C lines := by
  induction C with
  | nil =>
    intro lines h
    cases lines with
    | nil => exact .nil
    | cons l ls => cases h
  | cons c C ih =>
    intro lines h
    cases lines with
    | nil => cases h
    | cons l ls =>
      cases h with
      | cons h1 h2 => exact .cons (.of h1) (ih h2)

theorem texts_of {bol : Bool} {C : List (List Tok)} {lines : List (List Char)} {w : Bool} (h : Pairs (Seen plugins bol) C lines) : texts (C.map fun t => ⟨t, w⟩) = lines := by
  induction h with
  | nil => rfl
  | cons h1 _ ih =>
    simp only [texts, List.map_cons, h1.text] at ih ⊢
    rw [ih]

theorem more_of {bol : Bool} {C : List (List Tok)} {lines : List (List Char)} {w : Bool} (h : Pairs (Seen plugins bol) C lines) (hm : ∀ m ∈ lines, More m) :
    ∀ l ∈ C.map fun t => (⟨t, w⟩ : Line), MoreLine l := by
  induction h with
  | nil => intro l hl; cases hl
  | cons h1 _ ih =>
    intro l hl
    rcases List.mem_cons.1 hl with rfl | hl
    · exact h1.more (hm _ (by simp))
    · exact ih (fun m h => hm m (by simp [h])) l hl

theorem text_chars {s : List Char} (h : TextLine s) : s.head? ≠ some ':' ∧ s.head? ≠ some '[' ∧ Starts s := by
  obtain ⟨c, hc, hh⟩ := h.first
  have : ∀ c ∈ letters, c ≠ ':' ∧ c ≠ '[' ∧ c ∉ '[' :: whites := by decide
  obtain ⟨h1, h2, h3⟩ := this c hc
  rw [hh]
  refine ⟨by simpa using h1, by simpa using h2, c, hh, h3⟩

theorem lines_of {bol : Bool} {C : List (List Tok)} {lines : List (List Char)} (w : Bool) (h : Pairs (Seen plugins bol) C lines) (hl : Lines lines) :
    ∃ c C', C = c :: C' ∧ WordLine c ∧ (∀ l ∈ C'.map fun t => (⟨t, w⟩ : Line), MoreLine l) ∧ (C.map fun t => (⟨t, w⟩ : Line)).all supported = true := by
  cases h with
  | nil => cases hl
  | cons h1 h2 =>
    rename_i c l C' ls
    have hw := h1.word hl.1
    have hm := more_of (w := w) h2 hl.2
    refine ⟨c, C', rfl, hw, hm, ?_⟩
    rw [List.map_cons, List.all_cons, Bool.and_eq_true, List.all_eq_true]
    obtain ⟨t, ts, rfl, hk⟩ := hw.cons
    exact ⟨supported_of h1 hl.1.chars (text_chars hl.1).1 (by rw [hk]; decide), fun l hl => (hm l hl).supported⟩

/-- what is proved of every form -/
def Reads (word : Char → Bool) (C : List (List Tok)) (s : Shown) : Prop :=
  ∀ n, 2 ≤ n → ∃ p md, block word n false (C.map fun t => ⟨t, true⟩) = .ok (some p, [], md) ∧ p.shown = s

theorem reads_plain {word : Char → Bool} {C : List (List Tok)} {ls : List (List Char)} (h : Pairs (Seen plugins true) C ls) (hl : Lines ls) : Reads word C (.text .paragraph ls) := by
  intro n hn
  obtain ⟨n, rfl⟩ : ∃ m, n = m + 1 := ⟨n - 1, by omega⟩
  have ht := texts_of (w := true) h
  obtain ⟨c, C', rfl, hw, hm, hs⟩ := lines_of true h hl
  obtain ⟨t, ts, rfl, hk⟩ := hw.cons
  have hf := firstLine (ts := ts) (w := true) (show t.kind ∈ firstKinds by rw [hk]; decide)
  refine ⟨_, _, block_text hs (comment_of (.inr hf)) (meta_none (.inr hf)) hw hm, ?_⟩
  simp only [Para.shown, Option.bind_none, Option.getD_none]
  rw [← ht]
  rfl

/-! labels -/

theorem of_colon {rest : List UInt8} {K : TokenKind} {k : Nat} (h : First false ((58 : UInt8) :: 32 :: rest) K k) : K = Colon ∧ k = 1 := by
  cases h with
  | delim hb => cases hb
  | ticks hb => cases hb
  | one hh hl =>
    cases hh
    rw [show simpleTable.lookup (58 : UInt8) = none by decide] at hl
    cases hl
  | run hh hl =>
    cases hh
    rw [show simpleTable.lookup (58 : UInt8) = none by decide] at hl
    cases hl
  | space hh hs => cases hh; exact absurd hs (by decide)
  | digits hh hs => cases hh; exact absurd hs (by decide)
  | callout hh => exact absurd (Option.some.inj hh) (by decide)
  | xml hh => exact absurd (Option.some.inj hh) (by decide)
  | less hh => exact absurd (Option.some.inj hh) (by decide)
  | term hh _ _ ht =>
    rw [termLen] at ht
    have : List.takeWhile (· == (58 : UInt8)) (58 :: 32 :: rest) = [58] := by simp
    rw [this] at ht
    simp at ht
  | colon hh hb =>
    cases hh
    rcases hb with ⟨_, h⟩ | ⟨h, _⟩
    · exact ⟨h, rfl⟩
    · exact absurd h (by decide)
  | other hh _ _ _ _ hc => cases hh; exact absurd rfl hc

theorem starts_space {s : List Char} (h : Starts s) : ∀ x, (encode s).head? = some x → isSpace x = false := by
  obtain ⟨c, hc, hn⟩ := h
  obtain ⟨b, l, e, hb⟩ := tight_encode (text := s) (by rintro rfl; cases hc) (by
    intro d hd
    rw [hc] at hd
    cases hd
    exact fun hm => hn (by simp [hm]))
  intro x hx
  rw [e] at hx
  cases hx
  exact hb

theorem starts_ne {s : List Char} (h : Starts s) : s ≠ [] ∧ s.head? ≠ some '[' := by
  obtain ⟨c, hc, hn⟩ := h
  refine ⟨by (rintro rfl; cases hc), ?_⟩
  rw [hc]
  rintro ⟨⟩
  exact hn (by simp)

theorem label_line {bol : Bool} {a : Admonition} {text : List Char} {toks : List Tok} (h : Seen plugins bol toks (a.label ++ ": ".toList ++ text)) (hp : encode a.label ∉ plugins) (hs : Starts text) :
    ∃ t0 t1 t2 ts, toks = t0 :: t1 :: t2 :: ts ∧ t0.kind = Word ∧ t0.lexeme = encode a.label ∧ t1.kind = Colon ∧ t2.kind = Whitespace ∧ Seen plugins false ts text := by
  have hat := h.at_
  rw [encode_append, encode_append, List.append_assoc] at hat
  obtain ⟨t0, ts, rfl, hk0, hl0, h1⟩ := label_lexed (rest := encode text) hat hp
  obtain ⟨t1, ts, rfl⟩ := some_left h1 (by simp)
  obtain ⟨k, _, _, hf, _, h2⟩ := uncons h1
  obtain ⟨hk1, rfl⟩ := of_colon hf
  obtain ⟨t2, ts, rfl, hk2, _, h3⟩ := space_lexed (sp := [32]) (rest := encode text) h2 (by simp) (by decide) (starts_space hs)
  exact ⟨t0, t1, t2, ts, rfl, hk0, hl0, hk1, hk2, h3, fun t ht => h.ok t (by simp [ht])⟩

theorem derive_label (a : Admonition) : deriveAdmonition (encode a.label) = some a := by cases a <;> decide

theorem label_chars (a : Admonition) : Chars (a.label ++ ": ".toList) ∧ ∃ c cs, a.label = c :: cs ∧ c ≠ ':' := by
  constructor
  · intro c hc
    revert c
    cases a <;> decide
  · cases a <;> exact ⟨_, _, rfl, by decide⟩

theorem chars_append {a b : List Char} (ha : Chars a) (hb : Chars b) : Chars (a ++ b) := by
  intro c hc
  rcases List.mem_append.1 hc with h | h
  · exact ha c h
  · exact hb c h

theorem reads_label {word : Char → Bool} {C : List (List Tok)} {a : Admonition} {text : List Char} {ls : List (List Char)} (hp : encode a.label ∉ plugins)
    (h : Pairs (Seen plugins true) C ((a.label ++ ": ".toList ++ text) :: ls)) (hs : Starts text) (hc : Chars text) (ht : NoTerm text) (hm : ∀ m ∈ ls, More m) :
    Reads word C (.text (.admonition a) (text :: ls)) := by
  intro n hn
  obtain ⟨n, rfl⟩ : ∃ m, n = m + 1 := ⟨n - 1, by omega⟩
  cases h with
  | cons h1 h2 =>
    rename_i c C'
    obtain ⟨t0, t1, t2, ts, rfl, hk0, hl0, hk1, hk2, hseen⟩ := label_line h1 hp hs
    have hmore := more_of (w := true) h2 hm
    have htx := texts_of (w := true) h2
    obtain ⟨u, us, rfl⟩ := hseen.ne (starts_ne hs).1
    have hsup : supported ⟨t0 :: t1 :: t2 :: u :: us, true⟩ = true := by
      refine supported_of h1 (chars_append (label_chars a).1 hc) ?_ (by rw [hk0]; decide)
      obtain ⟨_, c, cs, e, hne⟩ := label_chars a
      rw [e]
      simpa using hne
    have hf := firstLine (ts := t1 :: t2 :: u :: us) (w := true) (show t0.kind ∈ firstKinds by rw [hk0]; decide)
    have hterm : ∀ x ∈ t0 :: t1 :: t2 :: u :: us, x.kind ≠ TermDelimiter := by
      intro x hx
      have := hseen.no_term ht
      rcases List.mem_cons.1 hx with rfl | hx
      · rw [hk0]; decide
      rcases List.mem_cons.1 hx with rfl | hx
      · rw [hk1]; decide
      rcases List.mem_cons.1 hx with rfl | hx
      · rw [hk2]; decide
      exact this x hx
    have ho := other_none (word := word) (w := true) (show t0.kind ∈ firstKinds by rw [hk0]; decide) (marker_none (by simp [hk0]) hterm)
    have hq := quoted_text (md := false) (l := ⟨t0 :: t1 :: t2 :: u :: us, true⟩) (more := C'.map fun t => ⟨t, true⟩) (by simp [kindAt, hk0]) (fun m h => (hmore m h).dashes)
    have hall : (⟨t0 :: t1 :: t2 :: u :: us, true⟩ :: C'.map fun t => (⟨t, true⟩ : Line)).all supported = true := by
      rw [List.all_cons, hsup, Bool.true_and, List.all_eq_true]
      exact fun l hl => (hmore l hl).supported
    have hcom := comment_of (ls := C'.map fun t => (⟨t, true⟩ : Line)) (.inr hf)
    have hctx : context none (⟨t0 :: t1 :: t2 :: u :: us, true⟩ :: C'.map fun t => (⟨t, true⟩ : Line)) = (.admonition a, ⟨u :: us, false⟩ :: C'.map fun t => (⟨t, true⟩ : Line)) := by
      unfold context
      rw [trim_none (by simp [kindAt, hk0])]
      simp only [label]
      rw [if_pos (by simp [startsSeq, hk0, hk1, hk2])]
      simp [hl0, derive_label, Line.drop]
    refine ⟨.text (.admonition a) (⟨u :: us, false⟩ :: C'.map fun t => (⟨t, true⟩ : Line)), false, ?_, ?_⟩
    · rw [List.map_cons]
      unfold block
      rw [if_neg (by simp [hall, hf.comment]), meta_none (.inr hf)]
      simp only [Bind.bind, Except.bind, hf.comment, hf.heading, ho, hq, Bool.false_eq_true, if_false, pure, Except.pure]
      rw [if_neg (by simp [startsSeq, hk0])]
      unfold paragraph
      simp only [Option.bind_none, hctx]
      rw [inline_all (by simp) (by
        intro m hm'
        rcases List.mem_cons.1 hm' with rfl | h
        · exact stops_of hseen (.inl rfl) (starts_ne hs).2
        · exact (hmore m h).stops)]
    · simp only [Para.shown]
      rw [← htx]
      simp only [texts, List.map_cons, hseen.text]

/-! literal paragraphs -/

theorem indented_line {n : Nat} {s : List Char} {toks : List Tok} (hn : 0 < n) (h : Seen plugins true toks (List.replicate n ' ' ++ s)) (hs : Starts s) :
    ∃ t ts, toks = t :: ts ∧ t.kind = Whitespace ∧ t.lexeme.length = n ∧ Seen plugins false ts s := by
  have hat := h.at_
  have he : encode (List.replicate n ' ') = List.replicate n 32 := by
    rw [enc_bs (by intro c hc; rw [List.mem_replicate] at hc; rw [hc.2]; decide), List.map_replicate]
    rfl
  rw [encode_append, he] at hat
  obtain ⟨t, ts, rfl, hk, hl, hr⟩ := space_lexed hat (by simp; omega) (by intro x hx; rw [List.mem_replicate] at hx; rw [hx.2]; decide) (starts_space hs)
  exact ⟨t, ts, rfl, hk, by simp [hl], hr, fun u hu => h.ok u (by simp [hu])⟩

/-- a line that is indented -/
structure Ind (n : Nat) (toks : List Tok) (s : List Char) (ts : List Tok) : Prop where
  cons : ∃ t, toks = t :: ts ∧ t.kind = Whitespace ∧ t.lexeme.length = n
  ne : ts ≠ []
  text : lineText ts = s
  supported : supported ⟨toks, true⟩ = true
  stops : stops ⟨ts, false⟩ = false

theorem ind_of {n : Nat} {s : List Char} {toks : List Tok} (hn : 0 < n) (h : Seen plugins true toks (List.replicate n ' ' ++ s)) (hs : Starts s) (hc : Chars s) : ∃ ts, Seen plugins false ts s ∧ Ind n toks s ts := by
  obtain ⟨t, ts, rfl, hk, hl, hseen⟩ := indented_line hn h hs
  obtain ⟨u, us, rfl⟩ := hseen.ne (starts_ne hs).1
  refine ⟨_, hseen, ⟨t, rfl, hk, hl⟩, by simp, hseen.text, supported_of h (chars_append ?_ hc) ?_ (by rw [hk]; decide), stops_of hseen (.inl rfl) (starts_ne hs).2⟩
  · intro c hc
    rw [List.mem_replicate] at hc
    rw [hc.2]; decide
  · cases n with
    | zero => omega
    | succ n => simp [List.replicate_succ]

theorem ind_all {n : Nat} {C : List (List Tok)} : ∀ {ls : List (List Char)}, 0 < n → Pairs (Seen plugins true) C (ls.map (List.replicate n ' ' ++ ·)) → (∀ m ∈ ls, Starts m ∧ Chars m) →
    ∃ D, Pairs (fun c d => ∃ s, Ind n c s d) C D ∧ D.map lineText = ls := by
  induction C with
  | nil =>
    intro ls hn h hs
    cases ls with
    | nil => exact ⟨[], .nil, rfl⟩
    | cons l ls => cases h
  | cons c C ih =>
    intro ls hn h hs
    cases ls with
    | nil => cases h
    | cons l ls =>
      cases h with
      | cons h1 h2 =>
        obtain ⟨ts, _, hi⟩ := ind_of hn h1 (hs l (by simp)).1 (hs l (by simp)).2
        obtain ⟨D, hD, he⟩ := ih hn h2 (fun m hm => hs m (by simp [hm]))
        exact ⟨ts :: D, .cons ⟨l, hi⟩ hD, by rw [List.map_cons, hi.text, he]⟩

theorem reads_indented {word : Char → Bool} {C : List (List Tok)} {k : Nat} {l : List Char} {ls : List (List Char)} (hk0 : 0 < k) (hk1 : k < 256)
    (h : Pairs (Seen plugins true) C ((l :: ls).map (List.replicate k ' ' ++ ·))) (hl : TextLine l) (hm : ∀ m ∈ ls, Starts m ∧ Chars m) : Reads word C (.text .literal (l :: ls)) := by
  intro n hn
  obtain ⟨n, rfl⟩ : ∃ m, n = m + 1 := ⟨n - 1, by omega⟩
  cases h with
  | cons h1 h2 =>
    rename_i c C'
    obtain ⟨d, hseen, hi⟩ := ind_of hk0 h1 (text_chars hl).2.2 hl.chars
    obtain ⟨D, hD, hDt⟩ := ind_all hk0 h2 hm
    have hw := hseen.word hl
    obtain ⟨t, rfl, hkt, hlt⟩ := hi.cons
    have hall : ∀ x ∈ C', ∃ s ts, Ind k x s ts := by
      clear hDt h2
      induction hD with
      | nil => intro x hx; cases hx
      | cons h _ ih =>
        intro x hx
        rcases List.mem_cons.1 hx with rfl | hx
        · exact ⟨_, _, h.choose_spec⟩
        · exact ih x hx
    have hdrop : (C'.map fun t => (⟨t, true⟩ : Line)).map (Line.drop 1) = D.map fun t => (⟨t, false⟩ : Line) := by
      clear hDt h2 hall
      induction hD with
      | nil => rfl
      | cons h _ ih =>
        obtain ⟨s, hs⟩ := h
        obtain ⟨u, rfl, _⟩ := hs.cons
        simp only [List.map_cons] at ih ⊢
        rw [ih]
        simp [Line.drop]
    have hstop : ∀ x ∈ D, stops ⟨x, false⟩ = false := by
      clear hDt h2 hall hdrop
      induction hD with
      | nil => intro x hx; cases hx
      | cons h _ ih =>
        intro x hx
        rcases List.mem_cons.1 hx with rfl | hx
        · obtain ⟨s, hs⟩ := h
          exact hs.stops
        · exact ih x hx
    have hf := firstLine (ts := d) (w := true) (show t.kind ∈ firstKinds by rw [hkt]; decide)
    obtain ⟨u, us, rfl, hku⟩ := hw.cons
    have hmark : marker word ⟨t :: u :: us, true⟩ = none := by
      unfold marker
      rw [if_neg (by simp [hf.comment, kindAt, hkt]), if_pos (by simp [kindAt, hkt])]
      simp [markerAt, hku, termMarker_none hw.term]
    have ho := other_none (word := word) (w := true) (show t.kind ∈ firstKinds by rw [hkt]; decide) hmark
    have hq : isQuoted false (⟨t :: u :: us, true⟩ :: C'.map fun t => (⟨t, true⟩ : Line)) = false := by
      unfold isQuoted
      simp [kindAt, hkt]
    have hsup : (⟨t :: u :: us, true⟩ :: C'.map fun t => (⟨t, true⟩ : Line)).all supported = true := by
      rw [List.all_cons, hi.supported, Bool.true_and, List.all_eq_true]
      intro x hx
      obtain ⟨c, hc, rfl⟩ := List.mem_map.1 hx
      obtain ⟨_, _, h⟩ := hall c hc
      exact h.supported
    have hcom := comment_of (ls := C'.map fun t => (⟨t, true⟩ : Line)) (.inr hf)
    have htrim : trimUniform (⟨t :: u :: us, true⟩ :: C'.map fun t => (⟨t, true⟩ : Line)) = some (⟨u :: us, false⟩ :: D.map fun t => (⟨t, false⟩ : Line)) := by
      unfold trimUniform
      simp only [List.head?_cons, Option.bind_some]
      rw [if_pos, List.map_cons, hdrop]
      · simp [Line.drop]
      · refine ⟨hkt, ?_⟩
        intro x hx
        rw [hlt, Nat.mod_eq_of_lt hk1]
        rcases List.mem_cons.1 hx with rfl | hx
        · simp [hkt, hlt]
        · obtain ⟨c, hc, rfl⟩ := List.mem_map.1 hx
          obtain ⟨_, ts, h⟩ := hall c hc
          obtain ⟨v, rfl, hv1, hv2⟩ := h.cons
          have := List.length_pos_iff.2 h.ne
          simp [hv1, hv2]
          omega
    have hctx : context none (⟨t :: u :: us, true⟩ :: C'.map fun t => (⟨t, true⟩ : Line)) = (.literal, ⟨u :: us, false⟩ :: D.map fun t => (⟨t, false⟩ : Line)) := by
      unfold context
      rw [htrim]
      simp only [label, hw.label, Bool.false_eq_true, if_false, Bool.true_or, if_true]
    refine ⟨.text .literal (⟨u :: us, false⟩ :: D.map fun t => (⟨t, false⟩ : Line)), false, ?_, ?_⟩
    · rw [List.map_cons]
      unfold block
      rw [if_neg (by simp [hsup, hf.comment]), meta_none (.inr hf)]
      simp only [Bind.bind, Except.bind, hf.comment, hf.heading, ho, hq, Bool.false_eq_true, if_false, pure, Except.pure]
      rw [if_neg (by simp [startsSeq, hkt])]
      unfold paragraph
      simp only [Option.bind_none, hctx]
      rw [inline_all (by simp) (by
        intro m hm'
        rcases List.mem_cons.1 hm' with rfl | h
        · exact hi.stops
        · obtain ⟨x, hx, rfl⟩ := List.mem_map.1 h
          exact hstop x hx)]
    · simp only [Para.shown]
      rw [← hDt, ← hi.text]
      simp [texts]

/-! styles -/

theorem style_line {s : List Char} {k : Kind} {toks : List Tok} (hm : (s, k) ∈ styles) (h : Seen plugins true toks ('[' :: s ++ [']'])) :
    ∃ a b c, toks = [a, b, c] ∧ a.kind = OpenBracket ∧ b.kind = Word ∧ c.kind = CloseBracket ∧ b.lexeme = encode s ∧ derive (encode s) = some k ∧ Chars ('[' :: s ++ [']']) := by
  have hs : ∀ e ∈ styles, (encode e.1).all isLetter = true ∧ encode e.1 ≠ [] ∧ derive (encode e.1) = some e.2 ∧ ∀ c ∈ '[' :: e.1 ++ [']'], c ∉ ['\n', '\r', '{', '@'] := by decide
  obtain ⟨h1, h2, h3, h4⟩ := hs _ hm
  simp only at h1 h2 h3 h4
  have hat := h.at_
  have e1 : encode ('[' :: s ++ [']']) = ch '[' :: (encode s ++ [ch ']']) := by
    rw [show '[' :: s ++ [']'] = ['['] ++ s ++ [']'] by simp, encode_append, encode_append]
    rfl
  rw [e1] at hat
  obtain ⟨a, ts, rfl, ha, _, hat⟩ := one_lexed (K := OpenBracket) hat rfl (by decide) (.inr (.inr (.inl (by decide))))
  rw [List.all_eq_true] at h1
  cases he : encode s with
  | nil => exact absurd he h2
  | cons x l =>
    have htw : ((x :: (l ++ [ch ']'])).takeWhile fun b => !wordBoundary true b) = x :: l :=
      (takeWhile_append_stop (p := fun b => !wordBoundary true b) (a := x :: l) (b := [ch ']']) (by
        intro y hy
        rw [← he] at hy
        simp [letter_word (h1 y hy)]) (by
        intro y hy
        cases hy
        decide)).1
    rw [he] at hat
    have hmem : ∀ c : UInt8, isLetter c = false → c ≠ ch ']' → c ∉ x :: (l ++ [ch ']']) := by
      intro c hc hc' hin
      rw [← List.cons_append, List.mem_append] at hin
      rcases hin with hin | hin
      · rw [← he] at hin
        rw [h1 c hin] at hc
        cases hc
      · exact hc' (by simpa using hin)
    obtain ⟨b, ts, rfl, hb, hbl⟩ := letter_lexed hat (h1 x (by rw [he]; simp)) (fun hin => hmem _ (by decide) (by decide) ((List.takeWhile_sublist _).subset hin)) (hmem _ (by decide) (by decide))
    replace hbl : b.lexeme = x :: l := hbl.trans htw
    obtain ⟨j, hj0, hj, _, hlex, hr⟩ := uncons hat
    have : j = (x :: l).length := by
      have := congrArg List.length (hlex.symm.trans hbl)
      rw [List.length_take] at this
      omega
    rw [this, List.drop_left] at hr
    obtain ⟨c, ts, rfl, hc, _, hr⟩ := one_lexed (K := CloseBracket) hr rfl (by decide) (.inr (.inl rfl))
    rw [hr.nil]
    exact ⟨a, b, c, rfl, ha, hb, hc, hbl, he ▸ h3, h4⟩

theorem reads_styled {word : Char → Bool} {C : List (List Tok)} {s : List Char} {k : Kind} {ls : List (List Char)} (hk : (s, k) ∈ styles)
    (h : Pairs (Seen plugins true) C (('[' :: s ++ [']']) :: ls)) (hl : Lines ls) : Reads word C (.text k ls) := by
  intro n hn
  obtain ⟨n, rfl⟩ : ∃ m, n = m + 1 := ⟨n - 1, by omega⟩
  cases h with
  | cons h1 h2 =>
    obtain ⟨a, b, c, rfl, ka, kb, kc, hlex, hder, hch⟩ := style_line hk h1
    have ht := texts_of (w := true) h2
    obtain ⟨c0, C', rfl, hw, hm, hs⟩ := lines_of true h2 hl
    obtain ⟨t, ts, rfl, hkt⟩ := hw.cons
    have hf := firstLine (ts := ts) (w := true) (show t.kind ∈ firstKinds by rw [hkt]; decide)
    have hsup : supported ⟨[a, b, c], true⟩ = true := supported_of h1 hch (by simp) (by rw [ka]; decide)
    have hmeta : chunkMeta (⟨[a, b, c], true⟩ :: ⟨t :: ts, true⟩ :: C'.map fun t => (⟨t, true⟩ : Line)) = .ok (some (encode s), ⟨t :: ts, true⟩ :: C'.map fun t => (⟨t, true⟩ : Line)) := by
      rw [chunkMeta, if_neg (by simp), if_neg (by simp [isTitle, ka, anchor, startsSeq, kb]), if_pos (by simp [attrList, isAttrList, kindAt, endsNonescaped, ka, kb, kc]),
        if_pos (by simp [ka, kb, kc, hf.title, hf.anchor, hf.attrs, hf.comment])]
      simp [hlex]
    refine ⟨_, _, block_text (ls := (([a, b, c] :: (t :: ts) :: C').map fun t => (⟨t, true⟩ : Line))) (by rw [List.map_cons, List.all_cons, hsup, hs]; rfl) (by simp [comment, isComment, ka]) hmeta hw hm, ?_⟩
    simp only [Para.shown, Option.bind_some, hder, Option.getD_some]
    rw [← ht]
    rfl

/-! credits -/

theorem credits_all {a : List Tok} (h : ∀ t ∈ a, t.kind ≠ Comma) : credits a = (a, []) := by
  induction a with
  | nil => rfl
  | cons t a ih => rw [credits, if_neg (h t (by simp)), ih (fun u hu => h u (by simp [hu]))]

theorem credits_comma {a r : List Tok} {c w : Tok} (h : ∀ t ∈ a, t.kind ≠ Comma) (hc : c.kind = Comma) (hw : w.kind = Whitespace) : credits (a ++ c :: w :: r) = (a, r) := by
  induction a with
  | nil => simp [credits, hc, kindAt, hw]
  | cons t a ih => rw [List.cons_append, credits, if_neg (h t (by simp)), ih (fun u hu => h u (by simp [hu]))]

theorem no_comma {bol : Bool} {toks a r : List Tok} {line : List UInt8} {who : List Char} (h : LexAt plugins bol line toks) (he : toks = a ++ r) (hf : a.flatMap Tok.lexeme = encode who) (hw : ',' ∉ who) :
    ∀ t ∈ a, t.kind ≠ Comma := by
  intro t ht hk
  obtain ⟨b, l, k, h0, h1, hfst, hlex⟩ := first_of h (t := t) (by rw [he]; simp [ht])
  obtain ⟨x, l', rfl, hx⟩ := first_table (hk ▸ hfst) (by decide)
  have hx' : x = 44 := by
    have : ∀ e ∈ simpleTable, simpleKind e.2 = Comma → e.1 = 44 := by decide
    rcases hx with ⟨hx, _⟩ | ⟨hx, _⟩
    · exact this _ hx rfl
    · exact this _ hx rfl
  apply hw
  refine LineKinds.mem_encode (by decide) ?_
  rw [← hf, List.mem_flatMap]
  refine ⟨t, ht, ?_⟩
  rw [hlex, hx']
  cases k with
  | zero => omega
  | succ k => rw [List.take_succ_cons]; simp [ch]

/-- what the line behind a quote is read as -/
structure CreditLine (toks : List Tok) (who : List Char) (cite : Option (List Char)) : Prop where
  starts : ∃ t0 t1 ts, toks = t0 :: t1 :: ts ∧ t0.kind = Dashes ∧ t0.lexeme.length = 2 ∧ t1.kind = Whitespace ∧ ts ≠ []
  who : ∃ a c, credits (toks.drop 2) = (a, c) ∧ inlineLines [⟨a, true⟩] = some ([⟨a, true⟩], []) ∧ lineText a = who ∧
    (cite = none ∧ c = [] ∨ ∃ s, cite = some s ∧ inlineLines [⟨c, true⟩] = some ([⟨c, true⟩], []) ∧ lineText c = s)

theorem credit_line {bol : Bool} {toks : List Tok} {who : List Char} {cite : Option (List Char)} (h : Seen plugins bol toks (credit who cite)) (hc : Credit who cite) : CreditLine toks who cite := by
  have hat := h.at_
  have e : encode (credit who cite) = List.replicate 2 (ch '-') ++ ((32 : UInt8) :: encode (who ++ citing cite)) := by
    rw [credit, List.append_assoc, encode_append]
    rfl
  rw [e] at hat
  obtain ⟨t0, ts, rfl, hk0, hl0, hat⟩ := run_lexed (K := Dashes) hat rfl (by decide) (by simp [ch]) (.inl (by simp))
  have hsw : Starts (who ++ citing cite) := by
    obtain ⟨c, hc, hn⟩ := hc.who.1
    refine ⟨c, ?_, hn⟩
    rw [List.head?_append, hc]; rfl
  obtain ⟨t1, ts, rfl, hk1, _, hat⟩ := space_lexed (sp := [32]) hat (by simp) (by decide) (starts_space hsw)
  change LexAt plugins false (encode (who ++ citing cite)) ts at hat
  obtain ⟨u, us, rfl⟩ := some_left hat (encode_ne (starts_ne hsw).1)
  have hseen : Seen plugins false (u :: us) (who ++ citing cite) := ⟨hat, fun t ht => h.ok t (by simp [ht])⟩
  refine ⟨⟨t0, t1, u :: us, rfl, hk0, by simp [hl0], hk1, by simp⟩, ?_⟩
  rw [List.drop_succ_cons, List.drop_succ_cons, List.drop_zero]
  have hst : ∀ {vs : List Tok}, stops ⟨u :: vs, true⟩ = false := by
    intro vs
    exact stops_of hseen (.inl rfl) (starts_ne hsw).2
  cases cite with
  | none =>
    simp only [citing, List.append_nil] at hseen hat
    have hn := no_comma (r := []) hat (by simp) hseen.flat hc.who.2.2.1
    refine ⟨u :: us, [], credits_all hn, inline_all (by simp) (by intro m hm; rw [List.mem_singleton] at hm; rw [hm]; exact hst), hseen.text, .inl ⟨rfl, rfl⟩⟩
  | some cite =>
    have e2 : encode (who ++ (", ".toList ++ cite)) = encode who ++ (44 : UInt8) :: ((32 : UInt8) :: encode cite) := by
      rw [encode_append, encode_append]; rfl
    simp only [citing] at hat hseen
    rw [e2] at hat
    obtain ⟨a, c, r, b', e3, hfa, hat2, hb'⟩ := cut _ (Nat.le_refl _) hat (fun t ht => (hseen.ok t ht).marks.2)
    have hn := no_comma hat e3 hfa hc.who.2.2.1
    obtain ⟨hsc, hcc, _⟩ := hc.cite cite rfl
    obtain ⟨c', r', e4, hkc, _, hat3⟩ := one_lexed (K := Comma) hat2 rfl (by decide) (.inr (.inr (.inl (by decide))))
    cases e4
    obtain ⟨w, v, rfl, hkw, _, hat4⟩ := space_lexed (sp := [32]) hat3 (by simp) (by decide) (starts_space hsc)
    have hseen4 : Seen plugins false v cite := ⟨hat4, fun t ht => hseen.ok t (by rw [e3]; simp [ht])⟩
    obtain ⟨v0, v1, rfl⟩ := hseen4.ne (starts_ne hsc).1
    cases a with
    | nil => exact absurd hfa.symm (encode_ne (starts_ne hc.who.1).1)
    | cons a0 a1 =>
      have ea := e3
      rw [List.cons_append] at ea
      have : u = a0 := (List.cons.inj ea).1
      subst this
      rw [e3, credits_comma hn hkc hkw]
      refine ⟨_, _, rfl, inline_all (by simp) (by intro m hm; rw [List.mem_singleton] at hm; rw [hm]; exact hst), lineText_eq hfa, .inr ⟨cite, rfl, ?_, hseen4.text⟩⟩
      exact inline_all (by simp) (by intro m hm; rw [List.mem_singleton] at hm; rw [hm]; exact stops_of hseen4 (.inl rfl) (starts_ne hsc).2)

theorem credit_supported {bol w : Bool} {toks : List Tok} {who : List Char} {cite : Option (List Char)} (h : Seen plugins bol toks (credit who cite)) (hc : Credit who cite) : supported ⟨toks, w⟩ = true := by
  obtain ⟨t0, t1, ts, rfl, hk, _⟩ := (credit_line h hc).starts
  refine supported_of h ?_ ?_ (by rw [hk]; decide)
  · unfold credit
    refine chars_append (chars_append (by intro c; revert c; decide) hc.who.2.1) ?_
    cases cite with
    | none => intro c hm; cases hm
    | some c => rw [citing]; exact chars_append (by intro c; revert c; decide) (hc.cite c rfl).2.1
  · unfold credit
    simp

/-! quoted paragraphs -/

theorem pairs_append {α β : Type} {R : α → β → Prop} {b : List β} : ∀ {a : List β} {C : List α}, Pairs R C (a ++ b) → ∃ A B, C = A ++ B ∧ Pairs R A a ∧ Pairs R B b := by
  intro a
  induction a with
  | nil => intro C h; exact ⟨[], C, rfl, .nil, h⟩
  | cons x a ih =>
    intro C h
    cases h with
    | cons h1 h2 =>
      obtain ⟨A, B, rfl, hA, hB⟩ := ih h2
      exact ⟨_ :: A, B, rfl, .cons h1 hA, hB⟩

theorem pairs_one {α β : Type} {R : α → β → Prop} {b : β} {C : List α} (h : Pairs R C [b]) : ∃ c, C = [c] ∧ R c b := by
  cases h with
  | cons h1 h2 =>
    cases h2
    exact ⟨_, rfl, h1⟩

theorem quote_end {bol : Bool} {toks : List Tok} {s : List Char} (h : Seen plugins bol toks (s ++ ['"'])) : ∃ a q, toks = a ++ [q] ∧ q.kind = DoubleQuote ∧ a.flatMap Tok.lexeme = encode s := by
  have hat := h.at_
  rw [encode_append] at hat
  obtain ⟨a, q, r, b', rfl, hfa, hat2, _⟩ := cut (c := 34) (y := []) _ (Nat.le_refl _) hat (fun t ht => (h.ok t ht).marks.1)
  obtain ⟨q', r', e, hk, _, hr⟩ := one_lexed (K := DoubleQuote) hat2 rfl (by decide) (.inr (.inr (.inl (by decide))))
  cases e
  rw [hr.nil]
  exact ⟨a, q, rfl, hk, hfa⟩

theorem quote_start {toks : List Tok} {s : List Char} (h : Seen plugins true toks ('"' :: s)) : ∃ q ts, toks = q :: ts ∧ q.kind = DoubleQuote ∧ Seen plugins false ts s := by
  have hat := h.at_
  have e : encode ('"' :: s) = (34 : UInt8) :: encode s := by
    rw [show '"' :: s = ['"'] ++ s by rfl, encode_append]; rfl
  rw [e] at hat
  obtain ⟨q, ts, rfl, hk, _, hr⟩ := one_lexed (K := DoubleQuote) hat rfl (by decide) (.inr (.inr (.inl (by decide))))
  exact ⟨q, ts, rfl, hk, hr, fun t ht => h.ok t (by simp [ht])⟩

theorem infix_concat {c d : Char} (hcd : c ≠ d) {l : List Char} (h : [c, c] <:+: l ++ [d]) : [c, c] <:+: l := by
  obtain ⟨s, t, e⟩ := h
  rcases List.eq_nil_or_concat t with rfl | ⟨t', x, rfl⟩
  · rw [List.append_nil] at e
    have := congrArg List.getLast? e
    simp at this
    exact absurd this hcd
  · rw [List.concat_eq_append, ← List.append_assoc] at e
    exact ⟨s, t', (List.append_inj' e rfl).1⟩

theorem noTerm_quote {l : List Char} (h : NoTerm l) : NoTerm (l ++ ['"']) :=
  ⟨fun hi => h.1 (infix_concat (by decide) hi), fun hi => h.2 (infix_concat (by decide) hi)⟩

theorem starts_append {a b : List Char} (h : Starts a) : Starts (a ++ b) := by
  obtain ⟨c, hc, hn⟩ := h
  exact ⟨c, by rw [List.head?_append, hc]; rfl, hn⟩

theorem more_quote {m : List Char} (h : More m) : More (m ++ ['"']) := by
  obtain ⟨c, hc, hn⟩ := h.first
  refine ⟨⟨c, by rw [List.head?_append, hc]; rfl, hn⟩, chars_append h.chars (by intro c; revert c; decide), fun hi => h.colons (infix_concat (by decide) hi)⟩

/-- what the lines of a quote are read as -/
structure QuoteLines (Q : List (List Tok)) (ls : List (List Char)) : Prop where
  first : ∃ q ts Q', Q = (q :: ts) :: Q' ∧ q.kind = DoubleQuote ∧ ts ≠ [] ∧ (∀ t ∈ q :: ts, t.kind ≠ TermDelimiter) ∧
    ∃ d D, dropLastTok (Line.drop 1 ⟨q :: ts, true⟩ :: Q'.map fun t => (⟨t, true⟩ : Line)) = d :: D ∧ d.toks ≠ [] ∧ (∀ m ∈ d :: D, stops m = false) ∧ texts (d :: D) = ls
  last : ∃ c, Q.getLast? = some c ∧ (c.getLast?.any fun t => t.kind == DoubleQuote) = true
  supported : (Q.map fun t => (⟨t, true⟩ : Line)).all supported = true

theorem quote_lines {Q : List (List Tok)} {l : List Char} {ls : List (List Char)} (h : Pairs (Seen plugins true) Q (inMarks (l :: ls))) (hs : Starts l) (hc : Chars l) (ht : NoTerm l)
    (hm : ∀ m ∈ ls, More m) : QuoteLines Q (l :: ls) := by
  have hq : Chars ['"'] := by intro c; revert c; decide
  rcases List.eq_nil_or_concat ls with rfl | ⟨ls', m, rfl⟩
  · have e : inMarks [l] = ['"' :: (l ++ ['"'])] := rfl
    rw [e] at h
    obtain ⟨c, rfl, h1⟩ := pairs_one h
    obtain ⟨q, ts, rfl, hk, hseen⟩ := quote_start h1
    have hterm := hseen.no_term (noTerm_quote ht)
    obtain ⟨a, q1, rfl, hk1, hfa⟩ := quote_end hseen
    cases a with
    | nil => exact absurd hfa.symm (encode_ne (starts_ne hs).1)
    | cons a0 a1 =>
      refine ⟨⟨q, _, [], rfl, hk, by simp, ?_, ⟨a0 :: a1, false⟩, [], ?_, by simp, ?_, ?_⟩, ⟨_, rfl, ?_⟩, ?_⟩
      · intro t ht
        rcases List.mem_cons.1 ht with rfl | ht
        · rw [hk]; decide
        · exact hterm t ht
      · simp [dropLastTok, Line.drop]
        exact List.dropLast_concat (l₁ := a0 :: a1)
      · intro x hx
        rw [List.mem_singleton] at hx
        rw [hx]
        exact stops_of hseen (.inl rfl) (starts_ne (starts_append hs)).2
      · simp [texts, lineText_eq hfa]
      · change ((q :: a0 :: a1 ++ [q1]).getLast?.any fun t => t.kind == DoubleQuote) = true
        rw [List.getLast?_append]
        simp [hk1]
      · simp only [List.map_cons, List.map_nil, List.all_cons, List.all_nil, Bool.and_true]
        exact supported_of h1 (by rw [show '"' :: (l ++ ['"']) = ['"'] ++ (l ++ ['"']) by rfl]; exact chars_append hq (chars_append hc hq)) (by simp) (by rw [hk]; decide)
  · have e : inMarks (l :: ls'.concat m) = ('"' :: l) :: (ls' ++ [m ++ ['"']]) := by
      rw [inMarks, List.concat_eq_append]
      simp only [← List.cons_append]
      rw [List.dropLast_concat, List.getLast?_append]
      rfl
    rw [e] at h
    rw [List.concat_eq_append] at hm ⊢
    cases h with
    | cons h1 h2 =>
      obtain ⟨A, B, rfl, hA, hB⟩ := pairs_append h2
      obtain ⟨b, rfl, hb⟩ := pairs_one hB
      obtain ⟨q, ts, rfl, hk, hseen⟩ := quote_start h1
      obtain ⟨t, ts, rfl⟩ := hseen.ne (starts_ne hs).1
      have hterm := hseen.no_term ht
      have hmA := more_of (w := true) hA (fun x hx => hm x (by simp [hx]))
      have hmb := more_quote (hm m (by simp))
      have hbl := hb.more (w := true) hmb
      have htA := texts_of (w := true) hA
      obtain ⟨a, q1, rfl, hk1, hfa⟩ := quote_end hb
      cases a with
      | nil =>
        obtain ⟨c, hc, _⟩ := (hm m (by simp)).first
        exact absurd hfa.symm (encode_ne (by rintro rfl; cases hc))
      | cons a0 a1 =>
        have hstb : stops ⟨a0 :: a1, false⟩ = false := by
          have h1 := hbl.stops
          simp only [stops, attrList, isAttrList, anchor, startsSeq, kindAt] at h1
          obtain ⟨c, hc, hn⟩ := hmb.first
          refine stops_of (ts := a1 ++ [q1]) hb (.inr ?_) ?_
          · intro d hd
            rw [hc] at hd
            cases hd
            intro hin
            refine hn (List.mem_append_left _ ?_)
            revert hin
            have : ∀ c ∈ "-_*=.+/`".toList, c ∈ "[:-_*=.+/`".toList := by decide
            exact this c
          · rw [hc]
            rintro ⟨⟩
            exact hn (by decide)
        refine ⟨⟨q, _, A ++ [a0 :: (a1 ++ [q1])], rfl, hk, by simp, ?_, ⟨t :: ts, false⟩, (A.map fun t => ⟨t, true⟩) ++ [⟨a0 :: a1, false⟩], ?_, by simp, ?_, ?_⟩, ⟨a0 :: (a1 ++ [q1]), ?_, ?_⟩, ?_⟩
        · intro x hx
          rcases List.mem_cons.1 hx with rfl | hx
          · rw [hk]; decide
          · exact hterm x hx
        · rw [List.map_append, List.map_cons, List.map_nil, ← List.cons_append, dropLastTok, List.getLast?_append, List.dropLast_concat]
          simp [Line.drop]
          exact List.dropLast_concat (l₁ := a0 :: a1)
        · intro x hx
          rcases List.mem_cons.1 hx with rfl | hx
          · exact stops_of hseen (.inl rfl) (starts_ne hs).2
          rcases List.mem_append.1 hx with hx | hx
          · exact (hmA x hx).stops
          · rw [List.mem_singleton] at hx
            rw [hx]
            exact hstb
        · rw [← htA]
          simp only [texts, List.map_cons, List.map_append, List.map_nil, hseen.text, lineText_eq hfa]
        · rw [← List.cons_append, List.getLast?_append]
          rfl
        · rw [← List.cons_append, List.getLast?_append]
          simp [hk1]
        · rw [List.all_eq_true]
          intro x hx
          rw [List.map_cons, List.map_append] at hx
          rcases List.mem_cons.1 hx with rfl | hx
          · exact supported_of h1 (by rw [show '"' :: l = ['"'] ++ l by rfl]; exact chars_append hq hc) (by simp) (by rw [hk]; decide)
          rcases List.mem_append.1 hx with hx | hx
          · exact (hmA x hx).supported
          · simp only [List.map_cons, List.map_nil, List.mem_singleton] at hx
            rw [hx]
            exact hbl.supported

theorem block_quoted {word : Char → Bool} {n : Nat} {md : Bool} {l : Line} {more : List Line} {q : Para} (hs : (l :: more).all supported = true) (hf : FirstLine l)
    (ho : otherBlock word l = false) (hg : kindAt l.toks 0 ≠ some GreaterThan) (hq : isQuoted md (l :: more) = true) (hp : quotedParagraph md (l :: more) = .ok q) :
    block word (n + 1) md (l :: more) = .ok (some q, [], md) := by
  have hg' : startsSeq [GreaterThan, Whitespace] l.toks = false := by
    rw [← Bool.not_eq_true]
    intro h
    obtain ⟨t, ts, e, hk, _⟩ := startsSeq_cons.1 h
    exact hg (by simp [e, kindAt, hk])
  unfold block
  rw [if_neg (by simp [hs, hf.comment]), meta_none (.inr hf)]
  simp only [Bind.bind, Except.bind, hf.comment, hf.heading, ho, hq, hg', hp, Bool.false_eq_true, if_false, if_true, pure, Except.pure]

theorem quoted_ok {md : Bool} {ls : List Line} {toks : List Tok} {w : Bool} {who : List Char} {cite : Option (List Char)} (hc : CreditLine toks who cite) {d : Line} {D : List Line} {tx : List (List Char)}
    (hd : (if md then ls else unmarked ls) = d :: D) (hne : d.toks ≠ []) (hst : ∀ m ∈ d :: D, stops m = false) (ht : texts (d :: D) = tx) :
    ∃ p, quotedParagraph md (ls ++ [⟨toks, w⟩]) = .ok p ∧ p.shown = .quoted tx [who] (cite.map ([·])) ∧ ∃ a b c, p = .quoted a b c := by
  obtain ⟨a, c, e1, e2, e3, hcite⟩ := hc.who
  unfold quotedParagraph
  rw [List.getLast?_append, List.dropLast_concat]
  simp only [List.getLast?_singleton, Option.some_or, e1, hd, e2, inline_all hne hst]
  rcases hcite with ⟨rfl, rfl⟩ | ⟨s, rfl, e4, e5⟩
  · rw [show inlineLines [⟨[], true⟩] = none by rfl]
    refine ⟨_, rfl, ?_, _, _, _, rfl⟩
    simp [Para.shown, ht]
    simp [texts, e3]
  · rw [e4]
    refine ⟨_, rfl, ?_, _, _, _, rfl⟩
    simp [Para.shown, ht]
    simp [texts, e3, e5]

theorem is_quoted {md : Bool} {l : Line} {ls : List Line} {toks : List Tok} {w : Bool} {who : List Char} {cite : Option (List Char)} (hc : CreditLine toks who cite) (hne : l.toks ≠ [])
    (h : md = false → kindAt l.toks 0 = some DoubleQuote ∧ 2 ≤ l.toks.length ∧ ∃ c, (l :: ls).getLast? = some c ∧ (c.toks.getLast?.any fun t => t.kind == DoubleQuote) = true) :
    isQuoted md (l :: ls ++ [⟨toks, w⟩]) = true := by
  obtain ⟨t0, t1, ts, rfl, hk0, hl0, hk1, hts⟩ := hc.starts
  have hlen := List.length_pos_iff.2 hts
  unfold isQuoted
  rw [List.getLast?_append]
  have hidx : (l :: ls ++ [(⟨t0 :: t1 :: ts, w⟩ : Line)])[(l :: ls ++ [(⟨t0 :: t1 :: ts, w⟩ : Line)]).length - 2]? = (l :: ls).getLast? := by
    rw [List.length_append, List.getElem?_append_left (by simp), List.getLast?_eq_getElem?]
    rfl
  rw [hidx]
  cases md with
  | true => simp [startsSeq, hk0, hk1, hl0, hne]; omega
  | false =>
    obtain ⟨h1, h2, c, h3, h4⟩ := h rfl
    rw [h3]
    simp [startsSeq, hk0, hk1, hl0, h1, h2]
    exact ⟨by omega, by simpa using h4⟩

theorem reads_quoted {word : Char → Bool} {C : List (List Tok)} {l : List Char} {ls : List (List Char)} {who : List Char} {cite : Option (List Char)}
    (h : Pairs (Seen plugins true) C (inMarks (l :: ls) ++ [credit who cite])) (hs : Starts l) (hc : Chars l) (ht : NoTerm l) (hm : ∀ m ∈ ls, More m) (hcr : Credit who cite) :
    Reads word C (.quoted (l :: ls) [who] (cite.map ([·]))) := by
  intro n hn
  obtain ⟨n, rfl⟩ : ∃ m, n = m + 1 := ⟨n - 1, by omega⟩
  obtain ⟨Q, B, rfl, hQ, hB⟩ := pairs_append h
  obtain ⟨b, rfl, hb⟩ := pairs_one hB
  have hql := quote_lines hQ hs hc ht hm
  have hcl := credit_line hb hcr
  obtain ⟨q, ts, Q', rfl, hk, hne, hterm, d, D, hd, hdne, hst, htx⟩ := hql.first
  obtain ⟨c, hc1, hc2⟩ := hql.last
  have hf := firstLine (ts := ts) (w := true) (show q.kind ∈ firstKinds by rw [hk]; decide)
  have ho := other_none (word := word) (w := true) (show q.kind ∈ firstKinds by rw [hk]; decide) (marker_none (by simp [hk]) hterm)
  have hlen := List.length_pos_iff.2 hne
  have hiq := is_quoted (md := false) (l := ⟨q :: ts, true⟩) (ls := Q'.map fun t => (⟨t, true⟩ : Line)) (w := true) hcl (by simp) (by
    intro _
    refine ⟨by simp [kindAt, hk], by simp; omega, ⟨c, true⟩, ?_, hc2⟩
    have : (⟨q :: ts, true⟩ :: Q'.map fun t => (⟨t, true⟩ : Line)) = ((q :: ts) :: Q').map fun t => (⟨t, true⟩ : Line) := rfl
    rw [this, List.getLast?_map, hc1]
    rfl)
  obtain ⟨p, hp, hsh, _⟩ := quoted_ok (md := false) (ls := ((q :: ts) :: Q').map fun t => (⟨t, true⟩ : Line)) (w := true) hcl (by simpa [unmarked] using hd) hdne hst htx
  refine ⟨p, false, ?_, hsh⟩
  rw [List.map_append, List.map_cons]
  refine block_quoted ?_ hf ho (by simp [kindAt, hk]) hiq hp
  change (((⟨q :: ts, true⟩ : Line) :: Q'.map fun t => (⟨t, true⟩ : Line)) ++ [(⟨b, true⟩ : Line)]).all supported = true
  rw [List.all_append]
  have := hql.supported
  rw [List.map_cons] at this
  rw [this]
  simp [credit_supported hb hcr]

/-! quotes in the style of Markdown -/

theorem marked_line {toks : List Tok} {s : List Char} (h : Seen plugins true toks ("> ".toList ++ s)) (hs : ∀ x, (encode s).head? = some x → isSpace x = false) :
    ∃ g w ts, toks = g :: w :: ts ∧ g.kind = GreaterThan ∧ w.kind = Whitespace ∧ Seen plugins false ts s := by
  have hat := h.at_
  have e : encode ("> ".toList ++ s) = (62 : UInt8) :: ([32] ++ encode s) := by rw [encode_append]; rfl
  rw [e] at hat
  obtain ⟨g, ts, rfl, hk, _, hr⟩ := one_lexed (K := GreaterThan) hat rfl (by decide) (.inr (.inr (.inl (by decide))))
  obtain ⟨w, ts, rfl, hk2, _, hr⟩ := space_lexed hr (by simp) (by decide) hs
  exact ⟨g, w, ts, rfl, hk, hk2, hr, fun t ht => h.ok t (by simp [ht])⟩

theorem mark_line {toks : List Tok} (h : Seen plugins true toks ['>']) : ∃ g, toks = [g] ∧ g.kind = GreaterThan := by
  obtain ⟨g, ts, rfl, hk, _, hr⟩ := one_lexed (K := GreaterThan) (b := 62) (rest := []) h.at_ rfl (by decide) (.inr (.inr (.inl (by decide))))
  rw [hr.nil]
  exact ⟨g, rfl, hk⟩

/-- lines in a quote, with the lines behind the marks -/
structure MarkedLine (toks ts : List Tok) : Prop where
  cons : ∃ g w, toks = g :: w :: ts ∧ g.kind = GreaterThan ∧ w.kind = Whitespace
  ne : ts ≠ []
  supported : supported ⟨toks, true⟩ = true

theorem marked_supported {toks : List Tok} {s : List Char} (h : Seen plugins true toks ("> ".toList ++ s)) (hs : ∀ x, (encode s).head? = some x → isSpace x = false) (hc : Chars s) : supported ⟨toks, true⟩ = true := by
  obtain ⟨g, w, ts, rfl, hk, _⟩ := marked_line h hs
  exact supported_of h (chars_append (by intro c; revert c; decide) hc) (by simp) (by rw [hk]; decide)

/-- a line that can be in a quote -/
def Inner (s : List Char) : Prop := s ≠ [] ∧ (∀ x, (encode s).head? = some x → isSpace x = false) ∧ Chars s

theorem inner_text {s : List Char} (h : TextLine s) : Inner s := ⟨(starts_ne (text_chars h).2.2).1, starts_space (text_chars h).2.2, h.chars⟩

theorem inner_more {s : List Char} (h : More s) : Inner s := by
  obtain ⟨c, hc, hn⟩ := h.first
  refine ⟨by (rintro rfl; cases hc), starts_space ⟨c, hc, fun hm => hn ?_⟩, h.chars⟩
  rcases List.mem_cons.1 hm with rfl | hm
  · decide
  · exact List.mem_append_right _ hm

theorem inner_credit {who : List Char} {cite : Option (List Char)} (h : Credit who cite) : Inner (credit who cite) := by
  refine ⟨by simp [credit], ?_, ?_⟩
  · refine starts_space ⟨'-', ?_, by decide⟩
    simp [credit]
  · unfold credit
    refine chars_append (chars_append (by intro c; revert c; decide) h.who.2.1) ?_
    cases cite with
    | none => intro c hm; cases hm
    | some c => rw [citing]; exact chars_append (by intro c; revert c; decide) (h.cite c rfl).2.1

theorem inner_lines {ls : List (List Char)} (h : Lines ls) : ∀ s ∈ ls, Inner s := by
  cases ls with
  | nil => cases h
  | cons l ls =>
    intro s hs
    rcases List.mem_cons.1 hs with rfl | hs
    · exact inner_text h.1
    · exact inner_more (h.2 s hs)

theorem marked_all {C : List (List Tok)} : ∀ {p : List (List Char)}, Pairs (Seen plugins true) C (marked p) → (∀ s ∈ p, Inner s) →
    ∃ D, Pairs (Seen plugins false) D p ∧ Pairs MarkedLine C D := by
  induction C with
  | nil =>
    intro p h _
    cases p with
    | nil => exact ⟨[], .nil, .nil⟩
    | cons l p => cases h
  | cons c C ih =>
    intro p h hi
    cases p with
    | nil => cases h
    | cons l p =>
      cases h with
      | cons h1 h2 =>
        obtain ⟨hne, hsp, hch⟩ := hi l (by simp)
        obtain ⟨D, hD1, hD2⟩ := ih h2 (fun s hs => hi s (by simp [hs]))
        have hsup := marked_supported h1 hsp hch
        obtain ⟨g, w, ts, rfl, hg, hw, hs⟩ := marked_line h1 hsp
        obtain ⟨t, ts, rfl⟩ := hs.ne hne
        exact ⟨_ :: D, .cons hs hD1, .cons ⟨⟨g, w, rfl, hg, hw⟩, by simp, hsup⟩ hD2⟩

theorem unquote_marked {toks ts : List Tok} (h : MarkedLine toks ts) : unquote ⟨toks, true⟩ = ⟨ts, false⟩ := by
  obtain ⟨g, w, rfl, hg, hw⟩ := h.cons
  simp [unquote, kindAt, hg, hw, Line.drop]

theorem paras_marked {C D : List (List Tok)} (h : Pairs MarkedLine C D) : ∀ (cur rest : List Line), paras cur (C.map (fun t => ⟨t, true⟩) ++ rest) = paras (cur ++ D.map fun t => ⟨t, false⟩) rest := by
  induction h with
  | nil => simp
  | cons h1 _ ih =>
    intro cur rest
    rw [List.map_cons, List.cons_append, paras, unquote_marked h1, if_neg h1.ne, ih]
    simp

theorem all_marked {C D : List (List Tok)} (h : Pairs MarkedLine C D) : (C.map fun t => (⟨t, true⟩ : Line)).all supported = true := by
  induction h with
  | nil => rfl
  | cons h1 _ ih => rw [List.map_cons, List.all_cons, h1.supported, ih]; rfl

/-- the lines of a quote of paragraphs -/
theorem paras_all : ∀ {ps : List (List (List Char))} {C : List (List Tok)}, Pairs (Seen plugins true) C (markedAll ps) → (∀ p ∈ ps, Lines p) →
    ∃ Ds, Pairs (Pairs (Seen plugins false)) Ds ps ∧ paras [] (C.map fun t => ⟨t, true⟩) = Ds.map (·.map fun t => ⟨t, false⟩) ∧ (C.map fun t => (⟨t, true⟩ : Line)).all supported = true := by
  intro ps
  induction ps with
  | nil =>
    intro C h _
    cases h
    exact ⟨[], .nil, rfl, rfl⟩
  | cons p ps ih =>
    intro C h hl
    have hp := hl p (by simp)
    have pne : ∀ {D : List (List Tok)}, Pairs (Seen plugins false) D p → D.map (fun t => (⟨t, false⟩ : Line)) ≠ [] := by
      intro D hD
      cases hD with
      | nil => cases hp
      | cons _ _ => simp
    cases ps with
    | nil =>
      obtain ⟨D, hD1, hD2⟩ := marked_all h (inner_lines hp)
      refine ⟨[D], .cons hD1 .nil, ?_, all_marked hD2⟩
      have := paras_marked hD2 [] []
      rw [List.append_nil, List.nil_append] at this
      rw [this, paras, if_neg (pne hD1)]
      rfl
    | cons p2 ps =>
      have e : markedAll (p :: p2 :: ps) = marked p ++ (['>'] :: markedAll (p2 :: ps)) := rfl
      rw [e] at h
      obtain ⟨A, B, rfl, hA, hB⟩ := pairs_append h
      obtain ⟨D, hD1, hD2⟩ := marked_all hA (inner_lines hp)
      cases hB with
      | cons h1 h2 =>
        obtain ⟨Ds, hDs, hpar, hsup⟩ := ih h2 (fun q hq => hl q (by simp [hq]))
        have hs1 : supported ⟨_, true⟩ = true := supported_of (w := true) (plugins := plugins) (bol := true) (t := (mark_line h1).choose) (ts := []) (s := ['>']) (by
          have := (mark_line h1).choose_spec.1
          rw [← this]
          exact h1) (by intro c; revert c; decide) (by decide) (by rw [(mark_line h1).choose_spec.2]; decide)
        rw [← (mark_line h1).choose_spec.1] at hs1
        obtain ⟨g, rfl, hg⟩ := mark_line h1
        refine ⟨D :: Ds, .cons hD1 hDs, ?_, ?_⟩
        · rw [List.map_append, paras_marked hD2, List.nil_append, List.map_cons, paras, if_pos (by simp [unquote, kindAt, hg, Line.drop]), if_neg (pne hD1), hpar]
          rfl
        · rw [List.map_append, List.all_append, all_marked hD2, List.map_cons, List.all_cons, hs1, hsup]
          rfl

theorem in_quote {word : Char → Bool} {n : Nat} {Ds : List (List (List Tok))} {ps : List (List (List Char))} (h : Pairs (Pairs (Seen plugins false)) Ds ps) (hl : ∀ p ∈ ps, Lines p) :
    inQuote (block word (n + 1)) true (Ds.map (·.map fun t => ⟨t, false⟩)) [] = .ok (Ds.map fun D => .text .paragraph (D.map fun t => ⟨t, false⟩), []) := by
  induction h with
  | nil => rfl
  | cons h1 _ ih =>
    obtain ⟨c, C', rfl, hw, hm, hs⟩ := lines_of false h1 (hl _ (by simp))
    rw [List.map_cons, inQuote]
    simp only [ne_eq, not_true_eq_false, if_false, Bind.bind, Except.bind, pure, Except.pure]
    rw [List.map_cons] at hs ⊢
    rw [block_text hs (comment_of (.inl rfl)) (meta_none (.inl rfl)) hw hm]
    simp only
    rw [ih (fun p hp => hl p (by simp [hp]))]
    simp

/-- the block is a quote in the style of Markdown -/
theorem block_marked {word : Char → Bool} {n : Nat} {C : List (List Tok)} {c D : List Tok} {inner : List Para} (hs : ((c :: C).map fun t => (⟨t, true⟩ : Line)).all supported = true)
    (hc : MarkedLine c D) (ht : ∀ u ∈ D, u.kind ≠ TermDelimiter) (hi : inQuote (block word n) true (paras [] ((c :: C).map fun t => (⟨t, true⟩ : Line))) [] = .ok (inner, [])) :
    block word (n + 1) false ((c :: C).map fun t => (⟨t, true⟩ : Line)) = .ok (some (asQuote inner), [], false) := by
  obtain ⟨g, w, rfl, hg, hw⟩ := hc.cons
  have hf := firstLine (ts := w :: D) (w := true) (show g.kind ∈ firstKinds by rw [hg]; decide)
  have ho := other_none (word := word) (w := true) (show g.kind ∈ firstKinds by rw [hg]; decide) (marker_none (by simp [hg]) (by
    intro u hu
    rcases List.mem_cons.1 hu with rfl | hu
    · rw [hg]; decide
    rcases List.mem_cons.1 hu with rfl | hu
    · rw [hw]; decide
    · exact ht u hu))
  rw [List.map_cons] at hs hi ⊢
  unfold block
  rw [if_neg (by simp [hs, hf.comment]), meta_none (.inr hf)]
  simp only [Bind.bind, Except.bind, hf.comment, hf.heading, ho, Bool.false_eq_true, if_false, pure, Except.pure]
  rw [if_pos (by simp [startsSeq, hg, hw]), hi]

theorem shownAll_texts {Ds : List (List (List Tok))} {ps : List (List (List Char))} (h : Pairs (Pairs (Seen plugins false)) Ds ps) :
    shownAll (Ds.map fun D => .text .paragraph (D.map fun t => ⟨t, false⟩)) = ps.map (.text .paragraph) := by
  induction h with
  | nil => rfl
  | cons h1 _ ih => rw [List.map_cons, List.map_cons, shownAll, ih, Para.shown, texts_of h1]

theorem marked_first {C : List (List Tok)} {p : List (List Char)} {rest : List (List Char)} (h : Pairs (Seen plugins true) C (marked p ++ rest)) (hl : Lines p) :
    ∃ c C' D, C = c :: C' ∧ MarkedLine c D ∧ ∀ u ∈ D, u.kind ≠ TermDelimiter := by
  cases p with
  | nil => cases hl
  | cons l p =>
    cases h with
    | cons h1 h2 =>
      obtain ⟨hne, hsp, hch⟩ := inner_text hl.1
      have hsup := marked_supported h1 hsp hch
      obtain ⟨g, w, ts, rfl, hg, hw, hs⟩ := marked_line h1 hsp
      have hterm := (hs.word hl.1).term
      obtain ⟨t, ts, rfl⟩ := hs.ne hne
      exact ⟨_, _, t :: ts, rfl, ⟨⟨g, w, rfl, hg, hw⟩, by simp, hsup⟩, hterm⟩

theorem reads_quotes {word : Char → Bool} {C : List (List Tok)} {ps : List (List (List Char))} (h : Pairs (Seen plugins true) C (markedAll ps)) (hne : ps ≠ []) (hl : ∀ p ∈ ps, Lines p) :
    Reads word C (.quotes (ps.map (.text .paragraph))) := by
  intro n hn
  obtain ⟨n, rfl⟩ : ∃ m, n = m + 1 + 1 := ⟨n - 2, by omega⟩
  obtain ⟨Ds, hDs, hpar, hsup⟩ := paras_all h hl
  obtain ⟨c, C', D, rfl, hm, ht⟩ : ∃ c C' D, C = c :: C' ∧ MarkedLine c D ∧ ∀ u ∈ D, u.kind ≠ TermDelimiter := by
    cases ps with
    | nil => exact absurd rfl hne
    | cons p ps =>
      cases ps with
      | nil => exact marked_first (rest := []) (by rw [List.append_nil]; exact h) (hl p (by simp))
      | cons q ps => exact marked_first (p := p) (rest := ['>'] :: markedAll (q :: ps)) h (hl p (by simp))
  refine ⟨_, _, block_marked hsup hm ht (by rw [hpar, in_quote hDs hl]), ?_⟩
  rw [← shownAll_texts hDs]
  cases Ds with
  | nil => rfl
  | cons d Ds => rfl

theorem reads_markedQuote {word : Char → Bool} {C : List (List Tok)} {ls : List (List Char)} {who : List Char} {cite : Option (List Char)}
    (h : Pairs (Seen plugins true) C (marked (ls ++ [credit who cite]))) (hl : Lines ls) (hcr : Credit who cite) : Reads word C (.quoted ls [who] (cite.map ([·]))) := by
  intro n hn
  obtain ⟨n, rfl⟩ : ∃ m, n = m + 1 + 1 := ⟨n - 2, by omega⟩
  have hinner : ∀ s ∈ ls ++ [credit who cite], Inner s := by
    intro s hs
    rcases List.mem_append.1 hs with hs | hs
    · exact inner_lines hl s hs
    · rw [List.mem_singleton] at hs
      rw [hs]
      exact inner_credit hcr
  obtain ⟨D, hD1, hD2⟩ := marked_all h hinner
  obtain ⟨c, C', d, rfl, hm, ht⟩ := marked_first (p := ls) (rest := marked [credit who cite]) (by rw [← show marked (ls ++ [credit who cite]) = marked ls ++ marked [credit who cite] by simp [marked]]; exact h) hl
  have hpar := paras_marked hD2 [] []
  rw [List.append_nil, List.nil_append] at hpar
  obtain ⟨A, B, rfl, hA, hB⟩ := pairs_append hD1
  obtain ⟨b, rfl, hb⟩ := pairs_one hB
  have hcl := credit_line hb hcr
  have htx := texts_of (w := false) hA
  obtain ⟨a, A', rfl, hw, hmore, hsup⟩ := lines_of false hA hl
  obtain ⟨t, ts, rfl, hk⟩ := hw.cons
  have hf := firstLine (ts := ts) (w := false) (show t.kind ∈ firstKinds by rw [hk]; decide)
  have ho := other_none (word := word) (w := false) (show t.kind ∈ firstKinds by rw [hk]; decide) (marker_none (by simp [hk]) hw.term)
  obtain ⟨p, hp, hsh, q1, q2, q3, rfl⟩ := quoted_ok (md := true) (ls := ((t :: ts) :: A').map fun t => (⟨t, false⟩ : Line)) (w := false) hcl (d := ⟨t :: ts, false⟩) (D := A'.map fun t => (⟨t, false⟩ : Line)) rfl (by simp) (by
    intro m hm
    rcases List.mem_cons.1 hm with rfl | hm
    · exact hf.stops
    · exact (hmore m hm).stops) htx
  have hiq := is_quoted (md := true) (l := ⟨t :: ts, false⟩) (ls := A'.map fun t => (⟨t, false⟩ : Line)) (w := false) hcl (by simp) (fun h => by cases h)
  have hblk := block_quoted (word := word) (n := n) (md := true) (l := ⟨t :: ts, false⟩) (more := (A'.map fun t => (⟨t, false⟩ : Line)) ++ [(⟨b, false⟩ : Line)]) (by
    rw [← List.cons_append, List.all_append]
    rw [List.map_cons] at hsup
    rw [hsup]
    simp [credit_supported hb hcr]) hf ho (by simp [kindAt, hk]) hiq hp
  refine ⟨_, _, block_marked (all_marked hD2) hm ht (inner := [.quoted q1 q2 q3]) ?_, hsh⟩
  rw [hpar, paras, if_neg (by simp), inQuote]
  simp only [ne_eq, not_true_eq_false, if_false, Bind.bind, Except.bind, pure, Except.pure]
  rw [List.map_append, List.map_cons, List.map_cons, List.map_nil, List.cons_append, hblk]
  rfl

/-! ### documents -/

theorem reads_written {word : Char → Bool} {C : List (List Tok)} {lines : List (List Char)} {s : Shown} (hp : ∀ a : Admonition, encode a.label ∉ plugins)
    (h : Pairs (Seen plugins true) C lines) (hw : Written lines s) : Reads word C s := by
  cases hw with
  | plain h1 => exact reads_plain h h1
  | label h1 h2 h3 h4 => exact reads_label (hp _) h h1 h2 h3 h4
  | indented h1 h2 h3 h4 => exact reads_indented h1 h2 h h3 h4
  | styled h1 h2 => exact reads_styled h1 h h2
  | quoted h1 h2 h3 h4 h5 => exact reads_quoted h h1 h2 h3 h4 h5
  | quotes h1 h2 => exact reads_quotes h h1 h2
  | markedQuote h1 h2 => exact reads_markedQuote h h1 h2

theorem blocks_all {word : Char → Bool} {Cs : List (List (List Tok))} {ss : List Shown} (h : Pairs (Reads word) Cs ss) :
    ∀ n, Cs.length + 3 ≤ n → ∃ ps, blocks word n (Cs.map (·.map fun t => ⟨t, true⟩)) = .ok (ps, []) ∧ shownAll ps = ss := by
  induction h with
  | nil =>
    intro n hn
    obtain ⟨n, rfl⟩ : ∃ m, n = m + 1 := ⟨n - 1, by omega⟩
    exact ⟨[], rfl, rfl⟩
  | cons h1 _ ih =>
    intro n hn
    obtain ⟨n, rfl⟩ : ∃ m, n = m + 1 := ⟨n - 1, by omega⟩
    simp only [List.length_cons] at hn
    obtain ⟨p, md, hb, hs⟩ := h1 n (by omega)
    obtain ⟨ps, hbs, hss⟩ := ih n (by omega)
    refine ⟨p :: ps, ?_, by rw [shownAll, hs, hss]⟩
    rw [List.map_cons, blocks, hb]
    simp only [Bind.bind, Except.bind, if_true, hbs, pure, Except.pure]

/-- what is known of every line -/
def Fine (l : List Char) : Prop := Chars l ∧ ∃ c ∈ l, c ∉ whites

theorem fine_inner {s : List Char} (h : Inner s) : Fine s := by
  refine ⟨h.2.2, ?_⟩
  cases s with
  | nil => exact absurd rfl h.1
  | cons c s =>
    refine ⟨c, by simp, fun hc => ?_⟩
    obtain ⟨b, l, e⟩ := enc_cons c
    have hb := h.2.1 b (by rw [encode, List.flatMap_cons, e]; rfl)
    revert hb
    have : ∀ c ∈ whites, ∀ b, (String.utf8EncodeChar c).head? = some b → isSpace b ≠ false := by
      intro c hc b hb
      simp only [whites, List.mem_cons, List.not_mem_nil, or_false] at hc
      rcases hc with rfl | rfl | rfl | rfl <;> (cases hb; decide)
    exact this c hc b (by rw [e]; rfl)

theorem fine_marked {s : List Char} (h : Inner s) : Fine ("> ".toList ++ s) :=
  ⟨chars_append (by intro c; revert c; decide) h.2.2, '>', by simp, by decide⟩

theorem fine_markedAll : ∀ {ps : List (List (List Char))}, (∀ p ∈ ps, Lines p) → ∀ l ∈ markedAll ps, Fine l := by
  intro ps
  induction ps with
  | nil => intro _ l hl; cases hl
  | cons p ps ih =>
    intro h l hl
    have hp : ∀ l ∈ marked p, Fine l := by
      intro l hl
      obtain ⟨s, hs, rfl⟩ := List.mem_map.1 hl
      exact fine_marked (inner_lines (h p (by simp)) s hs)
    cases ps with
    | nil => exact hp l hl
    | cons q ps =>
      rw [show markedAll (p :: q :: ps) = marked p ++ (['>'] :: markedAll (q :: ps)) from rfl] at hl
      rcases List.mem_append.1 hl with hl | hl
      · exact hp l hl
      rcases List.mem_cons.1 hl with rfl | hl
      · exact ⟨by intro c; revert c; decide, '>', by simp, by decide⟩
      · exact ih (fun p hp => h p (by simp [hp])) l hl

theorem fine_starts {a s : List Char} (ha : Chars a) (h : Starts s) (hc : Chars s) : Fine (a ++ s) := by
  obtain ⟨c, hc', hn⟩ := h
  refine ⟨chars_append ha hc, c, List.mem_append_right _ (List.mem_of_mem_head? hc'), fun hm => hn (by simp [hm])⟩

theorem fine_written {lines : List (List Char)} {s : Shown} (h : Written lines s) : ∀ l ∈ lines, Fine l := by
  have hmore : ∀ {m}, More m → Fine m := fun h => fine_inner (inner_more h)
  have hq : Chars ['"'] := by intro c; revert c; decide
  cases h with
  | plain h1 => exact fun l hl => fine_inner (inner_lines h1 l hl)
  | label h1 h2 h3 h4 =>
    intro l hl
    rcases List.mem_cons.1 hl with rfl | hl
    · exact fine_starts (label_chars _).1 h1 h2
    · exact hmore (h4 l hl)
  | indented h1 h2 h3 h4 =>
    intro l hl
    obtain ⟨x, hx, rfl⟩ := List.mem_map.1 hl
    have hr : ∀ n, Chars (List.replicate n ' ') := by
      intro n c hc
      rw [List.mem_replicate] at hc
      rw [hc.2]; decide
    rcases List.mem_cons.1 hx with rfl | hx
    · exact fine_starts (hr _) (text_chars h3).2.2 h3.chars
    · exact fine_starts (hr _) (h4 x hx).1 (h4 x hx).2
  | styled h1 h2 =>
    intro l hl
    rcases List.mem_cons.1 hl with rfl | hl
    · refine ⟨?_, '[', by simp, by decide⟩
      have hs : ∀ e ∈ styles, ∀ c ∈ '[' :: e.1 ++ [']'], c ∉ ['\n', '\r', '{', '@'] := by decide
      exact hs _ h1
    · exact fine_inner (inner_lines h2 l hl)
  | quoted h1 h2 h3 h4 h5 =>
    rename_i l ls who cite
    intro x hx
    rcases List.mem_append.1 hx with hx | hx
    · rcases List.eq_nil_or_concat ls with rfl | ⟨ls', m, rfl⟩
      · rw [show inMarks [l] = ['"' :: (l ++ ['"'])] from rfl, List.mem_singleton] at hx
        rw [hx]
        refine ⟨?_, '"', by simp, by decide⟩
        rw [show '"' :: (l ++ ['"']) = ['"'] ++ (l ++ ['"']) from rfl]
        exact chars_append hq (chars_append h2 hq)
      · have e : inMarks (l :: ls'.concat m) = ('"' :: l) :: (ls' ++ [m ++ ['"']]) := by
          rw [inMarks, List.concat_eq_append]
          simp only [← List.cons_append]
          rw [List.dropLast_concat, List.getLast?_append]
          rfl
        rw [e] at hx
        rw [List.concat_eq_append] at h4
        rcases List.mem_cons.1 hx with rfl | hx
        · refine ⟨?_, '"', by simp, by decide⟩
          rw [show '"' :: l = ['"'] ++ l from rfl]
          exact chars_append hq h2
        rcases List.mem_append.1 hx with hx | hx
        · exact hmore (h4 x (by simp [hx]))
        · rw [List.mem_singleton] at hx
          rw [hx]
          exact hmore (more_quote (h4 m (by simp)))
    · rw [List.mem_singleton] at hx
      rw [hx]
      exact fine_inner (inner_credit h5)
  | quotes h1 h2 => exact fine_markedAll h2
  | markedQuote h1 h2 =>
    intro x hx
    obtain ⟨s, hs, rfl⟩ := List.mem_map.1 hx
    apply fine_marked
    rcases List.mem_append.1 hs with hs | hs
    · exact inner_lines h1 s hs
    · rw [List.mem_singleton] at hs
      rw [hs]
      exact inner_credit h2

theorem fine_bytes {l : List Char} (h : Fine l) : ∃ x ∈ encode l, isSpace x = false := by
  obtain ⟨_, c, hc, hn⟩ := h
  obtain ⟨b, r, e, hb⟩ := tight_encode (text := [c]) (by simp) (by
    intro d hd
    cases hd
    exact hn)
  refine ⟨b, ?_, hb⟩
  rw [encode, List.mem_flatMap]
  refine ⟨c, hc, ?_⟩
  have : String.utf8EncodeChar c = encode [c] := by simp [encode]
  rw [this, e]
  simp

theorem pairs_map {α β γ : Type} {R : α → β → Prop} {S : α → γ → Prop} {f : γ → β} : ∀ {C : List α} {c : List γ}, Pairs R C (c.map f) → (∀ a, ∀ g ∈ c, R a (f g) → S a g) → Pairs S C c := by
  intro C
  induction C with
  | nil =>
    intro c h _
    cases c with
    | nil => exact .nil
    | cons g c => cases h
  | cons a C ih =>
    intro c h hs
    cases c with
    | nil => cases h
    | cons g c =>
      cases h with
      | cons h1 h2 => exact .cons (hs a g (by simp) h1) (ih h2 fun a g hg => hs a g (by simp [hg]))

theorem pairs_snd {α β γ : Type} {R : α → γ → Prop} {C : List α} : ∀ {c : List (β × γ)}, Pairs (fun a g => R a g.2) C c → Pairs R C (c.map Prod.snd) := by
  induction C with
  | nil =>
    intro c h
    cases c with
    | nil => exact .nil
    | cons g c => cases h
  | cons a C ih =>
    intro c h
    cases c with
    | nil => cases h
    | cons g c =>
      cases h with
      | cons h1 h2 => exact .cons h1 (ih h2)

theorem pairs_length {α β : Type} {R : α → β → Prop} {C : List α} {c : List β} (h : Pairs R C c) : C.length = c.length := by
  induction h with
  | nil => rfl
  | cons _ _ ih => simp [ih]

theorem read_written {word : Char → Bool} {nl : List UInt8} (hnl : nl = [10] ∨ nl = [13, 10]) {doc : List (List (List Char) × Shown)} {lines : List (List Char)}
    (hp : ∀ a : Admonition, encode a.label ∉ plugins) (hw : ∀ d ∈ doc, Written d.1 d.2) (hl : Laid (doc.map Prod.fst) lines) :
    ∀ n, doc.length + 3 ≤ n → ∃ ps, read plugins word n (lines.flatMap (encode · ++ nl)) = some (.ok (ps, [])) ∧ shownAll ps = doc.map Prod.snd := by
  have hfine : ∀ c ∈ doc.map Prod.fst, ∀ l ∈ c, Fine l := by
    intro c hc
    obtain ⟨d, hd, rfl⟩ := List.mem_map.1 hc
    exact fine_written (hw d hd)
  obtain ⟨tokss, hlex, hpairs⟩ := lexed_lines (plugins := plugins) hnl (lines := lines) (by
    intro l hl'
    rcases laid_mem hl l hl' with rfl | ⟨c, hc, hlc⟩
    · simp
    · have := (hfine c hc l hlc).1
      exact ⟨fun h => this _ h (by simp), fun h => this _ h (by simp)⟩)
  have hch := chunks_laid hl (tokss.length + 1) (Nat.lt_succ_self _) (fun c hc l hlc => fine_bytes (hfine c hc l hlc)) hpairs
  have hreads : Pairs (Reads word) (chunksOf (tokss.length + 1) tokss) (doc.map Prod.snd) :=
    pairs_snd (pairs_map hch fun C d hd h => reads_written hp (seen_all h) (hw d hd))
  intro n hn
  obtain ⟨ps, hb, hs⟩ := blocks_all hreads n (by rw [pairs_length hreads, List.length_map]; exact hn)
  refine ⟨ps, ?_, hs⟩
  unfold read
  rw [hlex, Option.map_some, hb]

end Verif.Paragraphs

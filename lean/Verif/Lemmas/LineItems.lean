import Verif.Lemmas.LineKinds
import Verif.Lemmas.DirRegex
/-! Lemmas: which lines are comments, titles, breaks, list items and text. -/
namespace Verif.LineKinds
open Verif Verif.Lexer Verif.Directives Verif.Verbatim TokenKind
variable {plugins : List (List UInt8)}

/-- an ASCII letter -/
def isLetter (b : UInt8) : Bool := isAlnum b && !isDigit b

theorem letter_table {b : UInt8} (h : isLetter b = true) : simpleTable.lookup b = none := by
  cases hl : simpleTable.lookup b with
  | none => rfl
  | some x =>
    have hm := lookup_mem hl
    have : ∀ e ∈ simpleTable, isLetter e.1 = false := by decide
    rw [this _ hm] at h
    cases h

theorem letter_ne {b c : UInt8} (h : isLetter b = true) (hc : isLetter c = false) : b ≠ c := by
  rintro rfl
  rw [h] at hc
  cases hc

theorem letter_word {b : UInt8} (h : isLetter b = true) : wordBoundary true b = false := by
  rw [← Bool.not_eq_true]
  intro hw
  unfold wordBoundary at hw
  simp only [Bool.or_eq_true, Bool.true_and, beq_iff_eq, List.contains_eq_mem, decide_eq_true_eq, or_assoc] at hw
  rcases hw with rfl | rfl | rfl | rfl | rfl | rfl | rfl | hm
  all_goals try (revert h; decide)
  have : ∀ x ∈ bs " :;<>,^_~*!?`+.[]{}()=|\"'\\%#&-", isLetter x = false := by decide
  rw [this _ hm] at h
  cases h

theorem nextToken_letter {pre line post : List UInt8} {b : UInt8} {s : Step} {p : Nat} (h : Around pre (b :: line) post) (hb : isLetter b = true)
    (hc : ch ':' ∉ (b :: line).takeWhile (· != 32)) (hat : ch '@' ∉ b :: line)
    (hs : nextToken (pre ++ (b :: line) ++ post) plugins pre.length = some (some s, p)) :
    s.kind = Word ∧ s.stop = pre.length + ((b :: line).takeWhile fun b => !wordBoundary true b).length := by
  have h0 : (pre ++ (b :: line) ++ post)[pre.length]? = some b := by simp
  unfold nextToken at hs
  simp only at hs
  split at hs
  · rename_i len c hd
    have := (delimiter_first h hd).2
    obtain ⟨_, ⟨c, hc, _, e⟩ | ⟨e, _⟩⟩ := first_delim this
    · have hbc : b ∈ List.replicate len c := by rw [← e]; simp
      rw [List.mem_replicate] at hbc
      have hall : ∀ x ∈ bs "_-*=.+/", isLetter x = false := by decide
      rw [hbc.2, hall _ hc] at hb
      cases hb
    · have := congrArg List.head? e
      simp at this
      subst this
      exact absurd hb (by decide)
  · rw [h0] at hs
    simp only [letter_table hb, Option.map_eq_some_iff] at hs
    obtain ⟨s', hs, he⟩ := hs
    injection he with he he2
    cases he
    unfold otherArm at hs
    have hsp : isSpace b = false := by
      rw [← Bool.not_eq_true, isSpace_iff]
      rintro (rfl | rfl | rfl | rfl) <;> revert hb <;> decide
    have hdg : isDigit b = false := by
      simp only [isLetter, Bool.and_eq_true, Bool.not_eq_true'] at hb
      exact hb.2
    have ne : ∀ {c}, isLetter c = false → b ≠ c := letter_ne hb
    rw [if_neg (by simp [hsp]), if_neg (ne (by decide)), if_neg (ne (by decide)), if_neg (ne (by decide)), if_neg (fun h => ne (by decide) h.1),
      if_neg (by simp [hdg]), if_neg (by rintro (h | h) <;> exact ne (by decide) h), if_neg (fun h => ne (by decide) h.1),
      if_neg (by rintro (h | h | h) <;> exact ne (by decide) h), if_neg (fun h => ne (by decide) h.1)] at hs
    unfold word at hs
    have hscan := h.scan (f := fun b => !wordBoundary true b) (by decide) (by simp [letter_word hb])
    simp only [hscan, Option.bind_eq_bind, Option.bind_eq_some_iff] at hs
    obtain ⟨d, _, hs⟩ := hs
    have key : ∀ c : UInt8, c ≠ 10 → c ≠ 13 → (pre ++ (b :: line) ++ post)[pre.length + ((b :: line).takeWhile fun b => !wordBoundary true b).length]? = some c →
        c ∈ b :: line ∧ (c ≠ 32 → c ∈ (b :: line).takeWhile (· != 32)) := by
      intro c h10 h13 hc
      obtain ⟨r, hr⟩ := List.takeWhile_prefix (fun b => !wordBoundary true b) (l := b :: line)
      have hall := List.all_takeWhile (p := fun b => !wordBoundary true b) (l := b :: line)
      generalize (b :: line).takeWhile (fun b => !wordBoundary true b) = w at hc hr hall
      rw [← hr, List.append_assoc, List.getElem?_append_right (by omega), Nat.add_sub_cancel_left, List.append_assoc, List.getElem?_append_right (Nat.le_refl _), Nat.sub_self] at hc
      cases r with
      | nil =>
        rw [List.nil_append] at hc
        exfalso
        rcases eol_iff.1 h.post with h | h | h
        · rw [h] at hc; cases hc
        · rw [h] at hc; exact h10 (Option.some.inj hc).symm
        · rw [h] at hc; exact h13 (Option.some.inj hc).symm
      | cons x r =>
        simp only [List.cons_append, List.getElem?_cons_zero, Option.some.injEq] at hc
        subst hc
        refine ⟨by rw [← hr]; simp, fun h32 => ?_⟩
        rw [← hr, List.takeWhile_append_of_pos]
        · simp [h32]
        · intro y hy
          rw [List.all_eq_true] at hall
          have := hall y hy
          simp only [bne_iff_ne]
          rintro rfl
          revert this
          decide
    split at hs
    · rename_i hcol
      exact absurd ((key _ (by decide) (by decide) hcol).2 (by decide)) hc
    split at hs
    · rename_i _ hcol
      exact absurd (key _ (by decide) (by decide) hcol).1 hat
    · cases hs; exact ⟨rfl, rfl⟩

theorem letter_lexed {bol : Bool} {b : UInt8} {line : List UInt8} {toks : List Tok} (h : LexAt plugins bol (b :: line) toks) (hb : isLetter b = true)
    (hc : ch ':' ∉ (b :: line).takeWhile (· != 32)) (hat : ch '@' ∉ b :: line) : ∃ t ts, toks = t :: ts ∧ t.kind = Word ∧ t.lexeme = (b :: line).takeWhile fun b => !wordBoundary true b := by
  obtain ⟨pre, post, fuel, q, ha, hbol, h⟩ := h
  cases fuel with
  | zero => simp [lexLine] at h
  | succ fuel =>
    have hb' : (pre ++ (b :: line) ++ post)[pre.length]? = some b := by simp
    obtain ⟨s, hs, hg⟩ := nextToken_good (plugins := plugins) (lt_length_of_getElem? hb')
    obtain ⟨k, hk0, hk, hst, hsp, hsl, hok⟩ := first_token ha.post ha.line hs hg
    unfold lexLine at h
    rw [if_neg (by
      rw [hb']
      have := ha.line b (by simp)
      intro h
      rcases eol_iff.1 h with h | h | h
      · cases h
      · exact this.1 (Option.some.inj h)
      · exact this.2 (Option.some.inj h)), hs] at h
    simp only [hsl, Option.bind_eq_bind, Option.bind_some, Option.bind_eq_some_iff] at h
    obtain ⟨⟨ts, q'⟩, h1, h2⟩ := h
    cases h2
    obtain ⟨h1, h2⟩ := nextToken_letter ha hb hc hat hs
    refine ⟨_, _, rfl, h1, ?_⟩
    obtain rfl : k = ((b :: line).takeWhile fun b => !wordBoundary true b).length := by omega
    exact (take_takeWhile _).1


/-! comments and titles -/

theorem comment_iff {toks : List Tok} {bol : Bool} {line : List UInt8} (h : LexAt plugins bol line toks) : isComment toks = true ↔ Comment line := by
  constructor
  · intro hc
    cases toks with
    | nil => simp [isComment] at hc
    | cons t ts =>
      simp only [isComment, List.getElem?_cons_zero, Option.any_some, Bool.and_eq_true, beq_iff_eq] at hc
      obtain ⟨x1, x2, x3⟩ := span_token (p := (· == ch '/')) h (fun k hf => by rw [hc.1] at hf; exact (first_slashes hf).2)
      refine ⟨line.dropWhile (· == ch '/'), ?_, ?_⟩
      · have e := takeWhile_run (c := ch '/') line
        rw [← x1, hc.2] at e
        have : bs "//" = List.replicate 2 (ch '/') := by decide
        rw [this, ← e, x1, List.takeWhile_append_dropWhile]
      · intro e
        have := List.head?_dropWhile_not (· == ch '/') line
        rw [e] at this
        simp at this
  · rintro ⟨rest, rfl, hr⟩
    have : bs "//" = List.replicate (1 + 1) (ch '/') := by decide
    rw [this] at h
    obtain ⟨t, ts, rfl, hk, hl, _⟩ := run_lexed h (K := ForwardSlashes) rfl (by decide) hr (.inr (.inr (.inr (by decide))))
    simp [isComment, hk, hl]

theorem title_iff {toks : List Tok} {bol : Bool} {line : List UInt8} (h : LexAt plugins bol line toks) : isTitle toks = true ↔ ∃ title, Title line title := by
  constructor
  · intro hc
    cases toks with
    | nil => simp [isTitle] at hc
    | cons t ts =>
      simp only [isTitle, List.getElem?_cons_zero, Option.any_some, Bool.and_eq_true, beq_iff_eq, decide_eq_true_eq, bne_iff_ne, List.length_cons] at hc
      obtain ⟨⟨⟨hk, hl⟩, hlen⟩, h1⟩ := hc
      obtain ⟨x1, x2, x3⟩ := span_token (p := (· == ch '.')) h (fun k hf => by rw [hk] at hf; exact (first_dots hf).2)
      have e := takeWhile_run (c := ch '.') line
      rw [← x1, hl] at e
      refine ⟨line.dropWhile (· == ch '.'), ?_, ?_, ?_, ?_⟩
      · have : [ch '.'] = t.lexeme := e.symm
        rw [← List.singleton_append, this, x1, List.takeWhile_append_dropWhile]
      · intro e2
        rw [e2] at x3
        have := x3.nil
        subst this
        simp at hlen
      · rw [tight_iff]
        intro x hx
        rw [← Bool.not_eq_true]
        intro hsp
        generalize line.dropWhile (· == ch '.') = l at hx x3
        obtain ⟨t', ts', rfl, hk', _⟩ := space_lexed (sp := l.takeWhile isSpace) (rest := l.dropWhile isSpace) (by rw [List.takeWhile_append_dropWhile]; exact x3)
          (by cases l with
              | nil => cases hx
              | cons y l => cases hx; simp [hsp])
          (blank_iff.1 blank_takeWhile) (tight_iff.1 tight_dropWhile)
        simp [kindAt, hk'] at h1
      · intro e
        have := List.head?_dropWhile_not (· == ch '.') line
        rw [e] at this
        simp at this
  · rintro ⟨title, rfl, hne, ht, hd⟩
    obtain ⟨t, ts, rfl, hk, hl, h1⟩ := run_lexed (n := 0) (b := ch '.') h (K := Dots) rfl (by decide) hd (.inl hne)
    obtain ⟨u, us, rfl⟩ := some_left h1 hne
    obtain ⟨k, _, _, hf, _⟩ := uncons h1
    have hu : u.kind ≠ Whitespace := by
      intro hu
      rw [hu] at hf
      obtain ⟨⟨b, hb, hs⟩, _⟩ := first_space hf
      rw [tight_iff] at ht
      rw [ht b hb] at hs
      cases hs
    simp [isTitle, hk, hl, kindAt, hu]

/-! breaks -/

theorem tail_blank {bol : Bool} {rest : List UInt8} {us : List Tok} (h : LexAt plugins bol rest us) : (us = [] ∨ ∃ w, us = [w] ∧ w.kind = Whitespace) ↔ Blank rest := by
  constructor
  · rintro (rfl | ⟨w, rfl, hw⟩)
    · rw [none_left h]; intro x hx; cases hx
    · obtain ⟨h1, _, h3⟩ := space_token h hw
      have := none_left h3
      rw [← List.takeWhile_append_dropWhile (p := isSpace) (l := rest), this, List.append_nil]
      exact blank_takeWhile
  · intro hb
    cases rest with
    | nil => exact .inl h.nil
    | cons b rest =>
      obtain ⟨t, ts, rfl, hk, _, h1⟩ := space_lexed (sp := b :: rest) (rest := []) (by rw [List.append_nil]; exact h) (by simp) (blank_iff.1 hb) (by intro x hx; cases hx)
      have := h1.nil
      subst this
      exact .inr ⟨t, rfl, hk⟩

theorem trimmed_iff {a us : List Tok} {x : Tok} (hx : x.kind ≠ Whitespace) : trimmedCount (a ++ x :: us) = a.length + 1 ↔ us = [] ∨ ∃ w, us = [w] ∧ w.kind = Whitespace := by
  unfold trimmedCount
  rcases List.eq_nil_or_concat us with rfl | ⟨l, w, rfl⟩
  · rw [List.getLast?_append]
    simp [hx]
  · rw [List.concat_eq_append, show a ++ x :: (l ++ [w]) = (a ++ x :: l) ++ [w] by simp, List.getLast?_append]
    simp only [List.getLast?_singleton, Option.some_or, Option.map_some, Option.some.injEq, List.length_append, List.length_cons, List.length_nil]
    split
    · rename_i hw
      constructor
      · intro e
        obtain rfl : l = [] := List.eq_nil_of_length_eq_zero (by omega)
        exact .inr ⟨w, rfl, hw⟩
      · rintro (e | ⟨w', e, _⟩)
        · simp at e
        · obtain rfl : l = [] := by
            cases l with
            | nil => rfl
            | cons y l => simp at e
          simp
    · rename_i hw
      constructor
      · omega
      · rintro (e | ⟨w', e, hw'⟩)
        · simp at e
        · obtain rfl : l = [] := by
            cases l with
            | nil => rfl
            | cons y l => simp at e
          cases e
          exact absurd hw' hw

theorem one_of {bol : Bool} {line : List UInt8} {t : Tok} {ts : List Tok} {c : UInt8} (h : LexAt plugins bol line (t :: ts))
    (hh : ∀ k, First bol line t.kind k → line.head? = some c) (hl : t.lexeme.length = 1) : ∃ rest, line = c :: rest ∧ LexAt plugins false rest ts := by
  obtain ⟨k, h0, h1, h2, h3, h4⟩ := uncons h
  have := hh k h2
  cases line with
  | nil => cases this
  | cons b line =>
    cases this
    have hk : k = 1 := by
      rw [h3, List.length_take] at hl
      omega
    subst hk
    exact ⟨line, rfl, h4⟩

theorem one_of' {bol : Bool} {line : List UInt8} {t : Tok} {ts : List Tok} {c : UInt8} (h : LexAt plugins bol line (t :: ts))
    (hh : ∀ k, First bol line t.kind k → line.head? = some c ∧ k = 1) : ∃ rest, line = c :: rest ∧ LexAt plugins false rest ts := by
  obtain ⟨k, h0, h1, h2, h3, h4⟩ := uncons h
  obtain ⟨e, rfl⟩ := hh k h2
  cases line with
  | nil => cases e
  | cons b line =>
    cases e
    exact ⟨line, rfl, h4⟩

/-- a kind of tokens that are the byte `c` -/
def ByteKind (K : TokenKind) (c : UInt8) : Prop :=
  (K ≠ Whitespace ∧ isSpace c = false) ∧ (∀ {bol line k}, First bol line K k → line.head? = some c ∧ k = 1) ∧
  ∀ {plugins bol rest toks}, LexAt plugins bol (c :: rest) toks → ((∃ x ∈ rest, x ≠ c) ∨ bol = false ∨ rest.length < 3) → (rest[0]? = some c ∨ ∀ x, rest[0]? = some x → isSpace x = true) →
    ∃ t ts, toks = t :: ts ∧ t.kind = K ∧ t.lexeme = [c] ∧ LexAt plugins false rest ts

theorem byteKind_star : ByteKind Star (ch '*') :=
  ⟨by decide, first_star, fun h h1 _ => one_lexed h rfl (by decide) (by
    rcases h1 with h | h | h
    · exact .inl h
    · exact .inr (.inl h)
    · exact .inr (.inr (.inr ⟨h, by decide⟩)))⟩

theorem byteKind_quote : ByteKind SingleQuote (ch '\'') :=
  ⟨by decide, first_quote, fun h _ _ => one_lexed h rfl (by decide) (.inr (.inr (.inl (by decide))))⟩

theorem byteKind_less : ByteKind LessThan (ch '<') := by
  refine ⟨by decide, first_less, fun {plugins bol rest toks} h _ h2 => ?_⟩
  obtain ⟨t, ts, rfl⟩ := some_left h (by simp)
  obtain ⟨k, h0, h1, hf, h3, h4⟩ := uncons h
  rcases of_less hf with ⟨hk, hc⟩ | ⟨hk, rfl, _⟩
  · exfalso
    have hd : rest.takeWhile isDigit = [] ∧ rest[0]? ≠ some (ch '.') ∧ rest[0]? ≠ some (ch '!') := by
      cases rest with
      | nil => exact ⟨rfl, by simp, by simp⟩
      | cons x rest =>
        simp only [List.getElem?_cons_zero, Option.some.injEq] at h2 ⊢
        have hx : isDigit x = false ∧ x ≠ ch '.' ∧ x ≠ ch '!' := by
          rcases h2 with rfl | h2
          · decide
          · rcases isSpace_iff.1 (h2 x rfl) with rfl | rfl | rfl | rfl <;> decide
        exact ⟨by simp [hx.1], by simpa using hx.2.1, by simpa using hx.2.2⟩
    rcases hc with hc | hc
    · rw [calloutLen_cons, if_neg (fun h => h.1 hd.1), if_neg (fun h => hd.2.1 h.1)] at hc
      cases hc
    · exact hd.2.2 hc
  · exact ⟨t, ts, rfl, hk, h3, h4⟩

theorem three_iff {toks : List Tok} {bol : Bool} {line : List UInt8} {K : TokenKind} {c : UInt8} (hK : ByteKind K c) (h : LexAt plugins bol line toks) :
    (trimmedCount toks = 3 ∧ startsSeq [K, K, K] toks = true) ↔ Alone line [c, c, c] := by
  constructor
  · rintro ⟨h1, h2⟩
    obtain ⟨t, ts, rfl, k1, h2⟩ := startsSeq_cons.1 h2
    obtain ⟨u, us, rfl, k2, h2⟩ := startsSeq_cons.1 h2
    obtain ⟨v, vs, rfl, k3, -⟩ := startsSeq_cons.1 h2
    obtain ⟨r1, rfl, g1⟩ := one_of' h (fun k hf => hK.2.1 (k1 ▸ hf))
    obtain ⟨r2, rfl, g2⟩ := one_of' g1 (fun k hf => hK.2.1 (k2 ▸ hf))
    obtain ⟨r3, rfl, g3⟩ := one_of' g2 (fun k hf => hK.2.1 (k3 ▸ hf))
    exact ⟨r3, rfl, (tail_blank g3).1 ((trimmed_iff (a := [t, u]) (by rw [k3]; exact hK.1.1)).1 h1)⟩
  · rintro ⟨sp, rfl, hb⟩
    have hs : sp = [] ∨ ∃ x ∈ sp, x ≠ c := by
      cases sp with
      | nil => exact .inl rfl
      | cons x sp =>
        refine .inr ⟨x, by simp, ?_⟩
        rintro rfl
        have := isSpace_iff.2 (hb x (by simp))
        rw [hK.1.2] at this
        cases this
    obtain ⟨t, ts, rfl, k1, -, g1⟩ := hK.2.2 h (by
      rcases hs with rfl | ⟨x, hx, hne⟩
      · exact .inr (.inr (by simp))
      · exact .inl ⟨x, by simp [hx], hne⟩) (.inl rfl)
    obtain ⟨u, us, rfl, k2, -, g2⟩ := hK.2.2 g1 (.inr (.inl rfl)) (.inl rfl)
    obtain ⟨v, vs, rfl, k3, -, g3⟩ := hK.2.2 g2 (.inr (.inl rfl)) (.inr (by
      intro x hx
      exact isSpace_iff.2 (hb x (List.mem_of_getElem? hx))))
    refine ⟨(trimmed_iff (a := [t, u]) (by rw [k3]; exact hK.1.1)).2 ((tail_blank g3).2 hb), ?_⟩
    exact startsSeq_cons.2 ⟨_, _, rfl, k1, startsSeq_cons.2 ⟨_, _, rfl, k2, startsSeq_cons.2 ⟨_, _, rfl, k3, startsSeq_nil⟩⟩⟩

theorem dashes_iff {toks : List Tok} {bol : Bool} {line : List UInt8} (h : LexAt plugins bol line toks) :
    ((∃ t, toks[0]? = some t ∧ t.kind = Dashes ∧ t.lexeme.length = 3) ∧ trimmedCount toks = 1) ↔ Alone line (bs "---") := by
  have h3 : bs "---" = List.replicate (2 + 1) (ch '-') := by decide
  constructor
  · rintro ⟨⟨t, h0, hk, hl⟩, h2⟩
    cases toks with
    | nil => cases h0
    | cons t' ts =>
      cases h0
      obtain ⟨x1, x2, x3⟩ := span_token (p := (· == ch '-')) h (fun k hf => by rw [hk] at hf; exact (first_dashes hf).2)
      have e := takeWhile_run (c := ch '-') line
      rw [← x1, hl] at e
      refine ⟨line.dropWhile (· == ch '-'), ?_, (tail_blank x3).1 ((trimmed_iff (a := []) (by rw [hk]; decide)).1 h2)⟩
      rw [h3, ← e, x1, List.takeWhile_append_dropWhile]
  · rintro ⟨sp, rfl, hb⟩
    rw [h3] at h
    obtain ⟨t, ts, rfl, hk, hl, g⟩ := run_lexed h (K := Dashes) rfl (by decide) (by
      intro e
      have := isSpace_iff.2 (hb _ (List.mem_of_mem_head? e))
      revert this; decide) (.inr (.inr (.inr (by decide))))
    exact ⟨⟨t, rfl, hk, by simp [hl]⟩, (trimmed_iff (a := []) (by rw [hk]; decide)).2 ((tail_blank g).2 hb)⟩

theorem five_iff {toks : List Tok} {bol : Bool} {line : List UInt8} {K : TokenKind} {c : UInt8} (hK : K ≠ Whitespace) (hcs : isSpace c = false)
    (hf : ∀ {bol line k}, First bol line K k → line.head? = some c)
    (hlex : ∀ {bol rest toks}, LexAt plugins bol (c :: rest) toks → rest[0]? ≠ some c → (bol = true → rest ≠ []) → ∃ t ts, toks = t :: ts ∧ t.kind = K ∧ t.lexeme = [c] ∧ LexAt plugins false rest ts)
    (h : LexAt plugins bol line toks) :
    (trimmedCount toks = 5 ∧ startsSeq [K, Whitespace, K, Whitespace, K] toks = true ∧ ∀ i < 5, ∀ t, toks[i]? = some t → t.lexeme.length = 1) ↔
      ∃ s s', Blank [s, s'] ∧ Alone line [c, s, c, s', c] := by
  constructor
  · rintro ⟨h1, h2, hl⟩
    obtain ⟨t1, ts, rfl, k1, h2⟩ := startsSeq_cons.1 h2
    obtain ⟨t2, ts, rfl, k2, h2⟩ := startsSeq_cons.1 h2
    obtain ⟨t3, ts, rfl, k3, h2⟩ := startsSeq_cons.1 h2
    obtain ⟨t4, ts, rfl, k4, h2⟩ := startsSeq_cons.1 h2
    obtain ⟨t5, ts, rfl, k5, -⟩ := startsSeq_cons.1 h2
    obtain ⟨r1, rfl, g1⟩ := one_of h (fun k h => hf (k1 ▸ h)) (hl 0 (by omega) _ rfl)
    obtain ⟨s, hs, r2, rfl, g2⟩ : ∃ s, isSpace s = true ∧ ∃ rest, r1 = s :: rest ∧ LexAt plugins false rest (t3 :: t4 :: t5 :: ts) := by
      obtain ⟨k, _, _, hff, _⟩ := uncons g1
      obtain ⟨⟨s, hs, hsp⟩, _⟩ := first_space (k2 ▸ hff)
      exact ⟨s, hsp, one_of g1 (fun k h => hs) (hl 1 (by omega) _ rfl)⟩
    obtain ⟨r3, rfl, g3⟩ := one_of g2 (fun k h => hf (k3 ▸ h)) (hl 2 (by omega) _ rfl)
    obtain ⟨s', hs', r4, rfl, g4⟩ : ∃ s, isSpace s = true ∧ ∃ rest, r3 = s :: rest ∧ LexAt plugins false rest (t5 :: ts) := by
      obtain ⟨k, _, _, hff, _⟩ := uncons g3
      obtain ⟨⟨s, hs, hsp⟩, _⟩ := first_space (k4 ▸ hff)
      exact ⟨s, hsp, one_of g3 (fun k h => hs) (hl 3 (by omega) _ rfl)⟩
    obtain ⟨r5, rfl, g5⟩ := one_of g4 (fun k h => hf (k5 ▸ h)) (hl 4 (by omega) _ rfl)
    refine ⟨s, s', ?_, r5, rfl, (tail_blank g5).1 ((trimmed_iff (a := [t1, t2, t3, t4]) (by rw [k5]; exact hK)).1 h1)⟩
    rw [blank_iff]
    simp [hs, hs']
  · rintro ⟨s, s', hss, sp, rfl, hb⟩
    rw [blank_iff] at hss hb
    simp only [List.mem_cons, List.not_mem_nil, or_false, forall_eq_or_imp, forall_eq] at hss
    have hne : ∀ {x}, isSpace x = true → x ≠ c := by
      rintro x hx rfl
      rw [hcs] at hx
      cases hx
    obtain ⟨t1, ts, rfl, k1, l1, g1⟩ := hlex h (by simpa using hne hss.1) (by simp)
    obtain ⟨t2, ts, rfl, k2, l2, g2⟩ := space_lexed (sp := [s]) (rest := c :: s' :: c :: sp) g1 (by simp) (by simpa using hss.1) (by intro x hx; cases hx; exact hcs)
    obtain ⟨t3, ts, rfl, k3, l3, g3⟩ := hlex g2 (by simpa using hne hss.2) (by simp)
    obtain ⟨t4, ts, rfl, k4, l4, g4⟩ := space_lexed (sp := [s']) (rest := c :: sp) g3 (by simp) (by simpa using hss.2) (by intro x hx; cases hx; exact hcs)
    obtain ⟨t5, ts, rfl, k5, l5, g5⟩ := hlex g4 (by
      intro e
      exact hne (hb _ (List.mem_of_getElem? e)) rfl) (by simp)
    refine ⟨(trimmed_iff (a := [t1, t2, t3, t4]) (by rw [k5]; exact hK)).2 ((tail_blank g5).2 (blank_iff.2 hb)), ?_, ?_⟩
    · exact startsSeq_cons.2 ⟨_, _, rfl, k1, startsSeq_cons.2 ⟨_, _, rfl, k2, startsSeq_cons.2 ⟨_, _, rfl, k3, startsSeq_cons.2 ⟨_, _, rfl, k4,
        startsSeq_cons.2 ⟨_, _, rfl, k5, startsSeq_nil⟩⟩⟩⟩⟩
    · intro i hi t ht
      match i, hi with
      | 0, _ => cases ht; simp [l1]
      | 1, _ => cases ht; simp [l2]
      | 2, _ => cases ht; simp [l3]
      | 3, _ => cases ht; simp [l4]
      | 4, _ => cases ht; simp [l5]

theorem five_dash {toks : List Tok} {bol : Bool} {line : List UInt8} (h : LexAt plugins bol line toks) :
    (trimmedCount toks = 5 ∧ startsSeq [Dashes, Whitespace, Dashes, Whitespace, Dashes] toks = true ∧ ∀ i < 5, ∀ t, toks[i]? = some t → t.lexeme.length = 1) ↔
      ∃ s s', Blank [s, s'] ∧ Alone line [ch '-', s, ch '-', s', ch '-'] := by
  refine five_iff (by decide) (by decide) (fun h => (first_dashes h).1) ?_ h
  intro bol rest toks h h1 h2
  refine run_lexed (n := 0) h rfl (by decide) (by rw [List.head?_eq_getElem?]; exact h1) ?_
  cases bol with
  | true => exact .inl (h2 rfl)
  | false => exact .inr (.inl rfl)

theorem five_star {toks : List Tok} {bol : Bool} {line : List UInt8} (h : LexAt plugins bol line toks) :
    (trimmedCount toks = 5 ∧ startsSeq [Star, Whitespace, Star, Whitespace, Star] toks = true ∧ ∀ i < 5, ∀ t, toks[i]? = some t → t.lexeme.length = 1) ↔
      ∃ s s', Blank [s, s'] ∧ Alone line [ch '*', s, ch '*', s', ch '*'] := by
  refine five_iff (by decide) (by decide) (fun h => (first_star h).1) ?_ h
  intro bol rest toks h h1 h2
  refine one_lexed h rfl (by decide) ?_
  cases rest with
  | nil =>
    cases bol with
    | true => exact absurd rfl (h2 rfl)
    | false => exact .inr (.inl rfl)
  | cons x rest => exact .inl ⟨x, by simp, by simpa using h1⟩

/-- stars are single bytes -/
theorem star_length {t : Tok} : ∀ {toks : List Tok} {bol : Bool} {line : List UInt8}, LexAt plugins bol line toks → t ∈ toks → t.kind = Star → t.lexeme.length = 1 := by
  intro toks
  induction toks with
  | nil => intro _ _ _ h; cases h
  | cons u us ih =>
    intro bol line h hm hk
    obtain ⟨k, h0, h1, h2, h3, h4⟩ := uncons h
    rcases List.mem_cons.1 hm with rfl | hm
    · obtain ⟨_, rfl⟩ := first_star (hk ▸ h2)
      rw [h3, List.length_take]
      omega
    · exact ih h4 hm hk

theorem any_iff {o : Option Tok} {p : Tok → Bool} : o.any p = true ↔ ∃ t, o = some t ∧ p t = true := by
  cases o <;> simp

/-- three tokens of a kind -/
def isThree (l : List Tok) (k : TokenKind) : Bool := trimmedCount l == 3 && startsSeq [k, k, k] l
/-- three tokens of a kind, with white space between them -/
def isFive (l : List Tok) (k : TokenKind) (len : Bool) : Bool :=
  trimmedCount l == 5 && startsSeq [k, .Whitespace, k, .Whitespace, k] l && ((l[1]?).any (·.lexeme.length == 1)) && ((l[3]?).any (·.lexeme.length == 1)) &&
    (!len || ([0, 2, 4].all fun i => (l[i]?).any (·.lexeme.length == 1)))
def isDashes (l : List Tok) : Bool := ((l[0]?).any fun t => tok1 t .Dashes 3) && trimmedCount l == 1

theorem breakOf_eq (l : List Tok) : breakOf l = if isThree l .SingleQuote || isThree l .Star then some .thematic
    else if isDashes l then some .thematic
    else if isFive l .Dashes true || isFive l .Star false then some .thematic
    else if isThree l .LessThan then some .page else none := rfl

theorem thematic_or {a b c d e f : Bool} : (if a || b then some Break.thematic else if c then some .thematic else if d || e then some .thematic else if f then some .page else none) = some .thematic ↔
    ((a = true ∨ b = true) ∨ c = true ∨ d = true ∨ e = true) := by
  cases a <;> cases b <;> cases c <;> cases d <;> cases e <;> cases f <;> simp

theorem three_true {l : List Tok} {k : TokenKind} : isThree l k = true ↔ trimmedCount l = 3 ∧ startsSeq [k, k, k] l = true := by
  simp [isThree]

theorem dash_true {l : List Tok} : isDashes l = true ↔ (∃ t, l[0]? = some t ∧ t.kind = Dashes ∧ t.lexeme.length = 3) ∧ trimmedCount l = 1 := by
  unfold isDashes
  rw [Bool.and_eq_true, any_iff]
  simp [tok1]

theorem starts_get {ks : List TokenKind} {i : Nat} (hi : i < ks.length) {l : List Tok} (h : startsSeq ks l = true) : ∃ t, l[i]? = some t := by
  induction ks generalizing l i with
  | nil => cases hi
  | cons k ks ih =>
    obtain ⟨t, ts, rfl, _, h⟩ := startsSeq_cons.1 h
    cases i with
    | zero => exact ⟨t, rfl⟩
    | succ i =>
      rw [List.getElem?_cons_succ]
      exact ih (by simpa using hi) h

theorem five_true {l : List Tok} {k : TokenKind} {len : Bool} : isFive l k len = true ↔ trimmedCount l = 5 ∧ startsSeq [k, .Whitespace, k, .Whitespace, k] l = true ∧
    (∀ t, l[1]? = some t → t.lexeme.length = 1) ∧ (∀ t, l[3]? = some t → t.lexeme.length = 1) ∧ (len = true → ∀ i ∈ [0, 2, 4], ∀ t, l[i]? = some t → t.lexeme.length = 1) := by
  unfold isFive
  simp only [Bool.and_eq_true, Bool.or_eq_true, beq_iff_eq, any_iff, Bool.not_eq_true', List.all_eq_true, and_assoc]
  refine and_congr_right fun _ => and_congr_right fun h => ?_
  have key : ∀ i < 5, ((∃ t, l[i]? = some t ∧ t.lexeme.length = 1) ↔ ∀ t, l[i]? = some t → t.lexeme.length = 1) := by
    intro i hi
    obtain ⟨t, ht⟩ := starts_get (by simpa using hi) h
    simp [ht]
  rw [key 1 (by omega), key 3 (by omega)]
  refine and_congr_right fun _ => and_congr_right fun _ => ?_
  have : (∀ i ∈ [0, 2, 4], ∃ t, l[i]? = some t ∧ t.lexeme.length = 1) ↔ ∀ i ∈ [0, 2, 4], ∀ t, l[i]? = some t → t.lexeme.length = 1 :=
    forall_congr' fun i => ⟨fun h1 hi => (key i (by simp at hi; omega)).1 (h1 hi), fun h1 hi => (key i (by simp at hi; omega)).2 (h1 hi)⟩
  rw [this]
  cases len <;> simp

theorem thematic_iff {toks : List Tok} {bol : Bool} {line : List UInt8} (h : LexAt plugins bol line toks) : breakOf toks = some .thematic ↔ ThematicBreak line := by
  have e : breakOf toks = some .thematic ↔ ((trimmedCount toks = 3 ∧ startsSeq [SingleQuote, SingleQuote, SingleQuote] toks = true) ∨
      (trimmedCount toks = 3 ∧ startsSeq [Star, Star, Star] toks = true)) ∨
      ((∃ t, toks[0]? = some t ∧ t.kind = Dashes ∧ t.lexeme.length = 3) ∧ trimmedCount toks = 1) ∨
      (trimmedCount toks = 5 ∧ startsSeq [Dashes, Whitespace, Dashes, Whitespace, Dashes] toks = true ∧ ∀ i < 5, ∀ t, toks[i]? = some t → t.lexeme.length = 1) ∨
      (trimmedCount toks = 5 ∧ startsSeq [Star, Whitespace, Star, Whitespace, Star] toks = true ∧ ∀ i < 5, ∀ t, toks[i]? = some t → t.lexeme.length = 1) := by
    rw [breakOf_eq, thematic_or]
    rw [three_true, three_true, five_true, five_true, dash_true]
    constructor
    · rintro ((h1 | h1) | h1 | h1 | h1)
      · exact .inl (.inl h1)
      · exact .inl (.inr h1)
      · exact .inr (.inl h1)
      · obtain ⟨h1, h2, h3, h4, h5⟩ := h1
        refine .inr (.inr (.inl ⟨h1, h2, ?_⟩))
        have h6 := h5 rfl
        intro i hi t ht
        match i, hi with
        | 0, _ => exact h6 0 (by simp) t ht
        | 1, _ => exact h3 t ht
        | 2, _ => exact h6 2 (by simp) t ht
        | 3, _ => exact h4 t ht
        | 4, _ => exact h6 4 (by simp) t ht
      · obtain ⟨h1, h2, h3, h4, _⟩ := h1
        refine .inr (.inr (.inr ⟨h1, h2, ?_⟩))
        obtain ⟨t1, ts, rfl, k1, h2⟩ := startsSeq_cons.1 h2
        obtain ⟨t2, ts, rfl, k2, h2⟩ := startsSeq_cons.1 h2
        obtain ⟨t3, ts, rfl, k3, h2⟩ := startsSeq_cons.1 h2
        obtain ⟨t4, ts, rfl, k4, h2⟩ := startsSeq_cons.1 h2
        obtain ⟨t5, ts, rfl, k5, -⟩ := startsSeq_cons.1 h2
        intro i hi t ht
        match i, hi with
        | 0, _ => cases ht; exact star_length h (by simp) k1
        | 1, _ => exact h3 t ht
        | 2, _ => cases ht; exact star_length h (by simp) k3
        | 3, _ => exact h4 t ht
        | 4, _ => cases ht; exact star_length h (by simp) k5
    · rintro ((h1 | h1) | h1 | ⟨h1, h2, h3⟩ | ⟨h1, h2, h3⟩)
      · exact .inl (.inl h1)
      · exact .inl (.inr h1)
      · exact .inr (.inl h1)
      · exact .inr (.inr (.inl ⟨h1, h2, h3 1 (by omega), h3 3 (by omega), fun _ i hi => h3 i (by
          simp only [List.mem_cons, List.not_mem_nil, or_false] at hi; omega)⟩))
      · exact .inr (.inr (.inr ⟨h1, h2, h3 1 (by omega), h3 3 (by omega), nofun⟩))
  rw [e, three_iff byteKind_quote h, three_iff byteKind_star h, dashes_iff h, five_dash h, five_star h]
  unfold ThematicBreak
  have b1 : bs "'''" = [ch '\'', ch '\'', ch '\''] := by decide
  have b2 : bs "***" = [ch '*', ch '*', ch '*'] := by decide
  simp only [List.mem_cons, List.not_mem_nil, or_false, exists_eq_or_imp, exists_eq_left, b1, b2, or_assoc]
  grind

theorem page_iff {toks : List Tok} {bol : Bool} {line : List UInt8} (h : LexAt plugins bol line toks) : breakOf toks = some .page ↔ PageBreak line := by
  have e : bs "<<<" = [ch '<', ch '<', ch '<'] := by decide
  unfold PageBreak
  rw [e, ← three_iff byteKind_less h, ← three_true, breakOf_eq]
  constructor
  · intro hp
    split at hp
    · cases hp
    split at hp
    · cases hp
    split at hp
    · cases hp
    split at hp
    · assumption
    · cases hp
  · intro hp
    have hk : ∀ {K ks}, startsSeq (K :: ks) toks = true → K = LessThan := by
      intro K ks hs
      obtain ⟨t, ts, rfl, k1, _⟩ := startsSeq_cons.1 hs
      obtain ⟨t', ts', e, k2, _⟩ := startsSeq_cons.1 (three_true.1 hp).2
      cases e
      rw [← k1, k2]
    rw [if_neg, if_neg, if_neg, if_pos hp]
    · rw [Bool.or_eq_true, five_true, five_true]
      rintro (⟨_, h, _⟩ | ⟨_, h, _⟩) <;> cases hk h
    · rw [dash_true]
      rintro ⟨_, h⟩
      have := (three_true.1 hp).1
      omega
    · rw [Bool.or_eq_true, three_true, three_true]
      rintro (⟨_, h⟩ | ⟨_, h⟩) <;> cases hk h

end Verif.LineKinds

import Verif.Model.LineKinds
import Verif.Spec.LineKinds
import Verif.Lemmas.LineStart
/-! Lemmas: what the first tokens of a line say about its text. -/
namespace Verif.LineKinds
open Verif Verif.Lexer Verif.Directives Verif.Verbatim TokenKind

theorem lookup_mem {α β : Type} [BEq α] [LawfulBEq α] {a : α} {b : β} : ∀ {l : List (α × β)}, l.lookup a = some b → (a, b) ∈ l := by
  intro l
  induction l with
  | nil => intro h; cases h
  | cons x l ih =>
    intro h
    obtain ⟨x1, x2⟩ := x
    rw [List.lookup_cons] at h
    split at h
    · rename_i e
      have e := eq_of_beq e
      subst e
      cases h
      simp
    · exact List.mem_cons_of_mem _ (ih h)

/-- kinds that are not in the table of simple tokens -/
def oddKinds : List TokenKind := otherKinds ++ [Whitespace, Digits, CalloutNumber, LessThan, TermDelimiter, Colon, SemiColon, DelimiterLine]

theorem first_table {bol : Bool} {line : List UInt8} {K : TokenKind} {k : Nat} (h : First bol line K k) (hK : K ∉ oddKinds) :
    ∃ b l, line = b :: l ∧ ((b, Simple.one K) ∈ simpleTable ∧ k = 1 ∨ (b, Simple.run K) ∈ simpleTable ∧ k = (line.takeWhile (· == b)).length) := by
  have hd : ∀ {b}, line.head? = some b → ∃ l, line = b :: l := by
    intro b hb
    cases line with
    | nil => cases hb
    | cons x l => cases hb; exact ⟨l, rfl⟩
  cases h with
  | delim => exact absurd (by decide) hK
  | ticks => exact absurd (by decide) hK
  | one hb hl => obtain ⟨l, rfl⟩ := hd hb; exact ⟨_, l, rfl, .inl ⟨lookup_mem hl, rfl⟩⟩
  | run hb hl => obtain ⟨l, rfl⟩ := hd hb; exact ⟨_, l, rfl, .inr ⟨lookup_mem hl, rfl⟩⟩
  | space => exact absurd (by decide) hK
  | digits => exact absurd (by decide) hK
  | callout => exact absurd (by decide) hK
  | xml => exact absurd (by decide) hK
  | less => exact absurd (by decide) hK
  | term => exact absurd (by decide) hK
  | colon _ hb => rcases hb with ⟨_, rfl⟩ | ⟨_, rfl⟩ <;> exact absurd (by decide) hK
  | other _ _ _ _ _ _ _ hm => exact absurd (List.mem_append_left _ hm) hK

theorem first_equal {bol : Bool} {line : List UInt8} {k : Nat} (h : First bol line EqualSigns k) :
    line.head? = some (ch '=') ∧ k = (line.takeWhile (· == ch '=')).length := by
  obtain ⟨b, l, rfl, ⟨ht, rfl⟩ | ⟨ht, rfl⟩⟩ := first_table h (by decide)
  · simp [simpleTable] at ht
  · simp [simpleTable] at ht
    subst ht; exact ⟨rfl, rfl⟩

theorem first_dots {bol : Bool} {line : List UInt8} {k : Nat} (h : First bol line Dots k) :
    line.head? = some (ch '.') ∧ k = (line.takeWhile (· == ch '.')).length := by
  obtain ⟨b, l, rfl, ⟨ht, rfl⟩ | ⟨ht, rfl⟩⟩ := first_table h (by decide)
  · simp [simpleTable] at ht
  · simp [simpleTable] at ht
    subst ht; exact ⟨rfl, rfl⟩

theorem first_dashes {bol : Bool} {line : List UInt8} {k : Nat} (h : First bol line Dashes k) :
    line.head? = some (ch '-') ∧ k = (line.takeWhile (· == ch '-')).length := by
  obtain ⟨b, l, rfl, ⟨ht, rfl⟩ | ⟨ht, rfl⟩⟩ := first_table h (by decide)
  · simp [simpleTable] at ht
  · simp [simpleTable] at ht
    subst ht; exact ⟨rfl, rfl⟩

theorem first_slashes {bol : Bool} {line : List UInt8} {k : Nat} (h : First bol line ForwardSlashes k) :
    line.head? = some (ch '/') ∧ k = (line.takeWhile (· == ch '/')).length := by
  obtain ⟨b, l, rfl, ⟨ht, rfl⟩ | ⟨ht, rfl⟩⟩ := first_table h (by decide)
  · simp [simpleTable] at ht
  · simp [simpleTable] at ht
    subst ht; exact ⟨rfl, rfl⟩

theorem first_hash {bol : Bool} {line : List UInt8} {k : Nat} (h : First bol line Hash k) : line.head? = some (ch '#') ∧ k = 1 := by
  obtain ⟨b, l, rfl, ⟨ht, rfl⟩ | ⟨ht, rfl⟩⟩ := first_table h (by decide)
  · simp [simpleTable] at ht
    subst ht; exact ⟨rfl, rfl⟩
  · simp [simpleTable] at ht

theorem first_star {bol : Bool} {line : List UInt8} {k : Nat} (h : First bol line Star k) : line.head? = some (ch '*') ∧ k = 1 := by
  obtain ⟨b, l, rfl, ⟨ht, rfl⟩ | ⟨ht, rfl⟩⟩ := first_table h (by decide)
  · simp [simpleTable] at ht
    subst ht; exact ⟨rfl, rfl⟩
  · simp [simpleTable] at ht

theorem first_plus {bol : Bool} {line : List UInt8} {k : Nat} (h : First bol line Plus k) : line.head? = some (ch '+') ∧ k = 1 := by
  obtain ⟨b, l, rfl, ⟨ht, rfl⟩ | ⟨ht, rfl⟩⟩ := first_table h (by decide)
  · simp [simpleTable] at ht
    subst ht; exact ⟨rfl, rfl⟩
  · simp [simpleTable] at ht

theorem first_quote {bol : Bool} {line : List UInt8} {k : Nat} (h : First bol line SingleQuote k) : line.head? = some (ch '\'') ∧ k = 1 := by
  obtain ⟨b, l, rfl, ⟨ht, rfl⟩ | ⟨ht, rfl⟩⟩ := first_table h (by decide)
  · simp [simpleTable] at ht
    subst ht; exact ⟨rfl, rfl⟩
  · simp [simpleTable] at ht

theorem first_openB {bol : Bool} {line : List UInt8} {k : Nat} (h : First bol line OpenBracket k) : line.head? = some (ch '[') ∧ k = 1 := by
  obtain ⟨b, l, rfl, ⟨ht, rfl⟩ | ⟨ht, rfl⟩⟩ := first_table h (by decide)
  · simp [simpleTable] at ht
    subst ht; exact ⟨rfl, rfl⟩
  · simp [simpleTable] at ht

theorem first_closeB {bol : Bool} {line : List UInt8} {k : Nat} (h : First bol line CloseBracket k) : line.head? = some (ch ']') ∧ k = 1 := by
  obtain ⟨b, l, rfl, ⟨ht, rfl⟩ | ⟨ht, rfl⟩⟩ := first_table h (by decide)
  · simp [simpleTable] at ht
    subst ht; exact ⟨rfl, rfl⟩
  · simp [simpleTable] at ht

theorem first_backslash {bol : Bool} {line : List UInt8} {k : Nat} (h : First bol line Backslash k) : line.head? = some (ch '\\') ∧ k = 1 := by
  obtain ⟨b, l, rfl, ⟨ht, rfl⟩ | ⟨ht, rfl⟩⟩ := first_table h (by decide)
  · simp [simpleTable] at ht
    subst ht; exact ⟨rfl, rfl⟩
  · simp [simpleTable] at ht

/-- the kind of an entry of the table -/
def simpleKind : Simple → TokenKind
  | .one K => K
  | .run K => K

theorem table_odd : ∀ e ∈ simpleTable, simpleKind e.2 ∉ oddKinds := by decide

theorem one_odd {b : UInt8} {K : TokenKind} (h : simpleTable.lookup b = some (.one K)) : K ∉ oddKinds := table_odd _ (lookup_mem h)
theorem run_odd {b : UInt8} {K : TokenKind} (h : simpleTable.lookup b = some (.run K)) : K ∉ oddKinds := table_odd _ (lookup_mem h)

theorem first_space {bol : Bool} {line : List UInt8} {k : Nat} (h : First bol line Whitespace k) :
    (∃ b, line.head? = some b ∧ isSpace b = true) ∧ k = (line.takeWhile isSpace).length := by
  cases h with
  | one _ hl => exact absurd (by decide) (one_odd hl)
  | run _ hl => exact absurd (by decide) (run_odd hl)
  | space hb hs => exact ⟨⟨_, hb, hs⟩, rfl⟩
  | colon _ hb => rcases hb with ⟨_, h⟩ | ⟨_, h⟩ <;> cases h
  | other _ _ _ _ _ _ _ hm => exact absurd hm (by decide)

theorem first_digits {bol : Bool} {line : List UInt8} {k : Nat} (h : First bol line Digits k) :
    (∃ b, line.head? = some b ∧ isDigit b = true) ∧ k = (line.takeWhile isDigit).length := by
  cases h with
  | one _ hl => exact absurd (by decide) (one_odd hl)
  | run _ hl => exact absurd (by decide) (run_odd hl)
  | digits hb hs => exact ⟨⟨_, hb, hs⟩, rfl⟩
  | colon _ hb => rcases hb with ⟨_, h⟩ | ⟨_, h⟩ <;> cases h
  | other _ _ _ _ _ _ _ hm => exact absurd hm (by decide)

theorem first_callout {bol : Bool} {line : List UInt8} {k : Nat} (h : First bol line CalloutNumber k) :
    line.head? = some (ch '<') ∧ (calloutLen line = some k ∨ line[1]? = some (ch '!') ∧ 2 ≤ k) := by
  cases h with
  | one _ hl => exact absurd (by decide) (one_odd hl)
  | run _ hl => exact absurd (by decide) (run_odd hl)
  | callout hb hs => exact ⟨hb, .inl hs⟩
  | xml hb hs h2 => exact ⟨hb, .inr ⟨hs, h2⟩⟩
  | colon _ hb => rcases hb with ⟨_, h⟩ | ⟨_, h⟩ <;> cases h
  | other _ _ _ _ _ _ _ hm => exact absurd hm (by decide)

theorem first_less {bol : Bool} {line : List UInt8} {k : Nat} (h : First bol line LessThan k) : line.head? = some (ch '<') ∧ k = 1 := by
  cases h with
  | one _ hl => exact absurd (by decide) (one_odd hl)
  | run _ hl => exact absurd (by decide) (run_odd hl)
  | less hb hs => exact ⟨hb, rfl⟩
  | colon _ hb => rcases hb with ⟨_, h⟩ | ⟨_, h⟩ <;> cases h
  | other _ _ _ _ _ _ _ hm => exact absurd hm (by decide)

theorem first_term {bol : Bool} {line : List UInt8} {k : Nat} (h : First bol line TermDelimiter k) :
    (line.head? = some (ch ':') ∨ line.head? = some (ch ';')) ∧ bol = false ∧ termLen line = some k := by
  cases h with
  | one _ hl => exact absurd (by decide) (one_odd hl)
  | run _ hl => exact absurd (by decide) (run_odd hl)
  | term hb hs h1 h2 => exact ⟨by rcases hs with rfl | rfl; exact .inl hb; exact .inr hb, h1, h2⟩
  | colon _ hb => rcases hb with ⟨_, h⟩ | ⟨_, h⟩ <;> cases h
  | other _ _ _ _ _ _ _ hm => exact absurd hm (by decide)

theorem first_delim {bol : Bool} {line : List UInt8} {k : Nat} (h : First bol line DelimiterLine k) :
    bol = true ∧ ((∃ c ∈ bs "_-*=.+/", (k = 2 ∧ c = ch '-' ∨ 4 ≤ k) ∧ line = List.replicate k c) ∨ line.take 3 = bs "```" ∧ k = 3) := by
  cases h with
  | delim h1 h2 h3 h4 => exact ⟨h1, .inl ⟨_, h2, h3, h4⟩⟩
  | ticks h1 h2 => exact ⟨h1, .inr ⟨h2, rfl⟩⟩
  | one _ hl => exact absurd (by decide) (one_odd hl)
  | run _ hl => exact absurd (by decide) (run_odd hl)
  | colon _ hb => rcases hb with ⟨_, h⟩ | ⟨_, h⟩ <;> cases h
  | other _ _ _ _ _ _ _ hm => exact absurd hm (by decide)

/-! from the first byte to the kind -/

theorem lookup_none {b : UInt8} (h : isSpace b = true ∨ isDigit b = true ∨ b = ch '<' ∨ b = ch ':' ∨ b = ch ';') : simpleTable.lookup b = none := by
  cases hl : simpleTable.lookup b with
  | none => rfl
  | some x =>
    have hm := lookup_mem hl
    have : ∀ e ∈ simpleTable, ¬ (isSpace e.1 = true ∨ isDigit e.1 = true ∨ e.1 = ch '<' ∨ e.1 = ch ':' ∨ e.1 = ch ';') := by decide
    exact absurd h (this _ hm)

theorem space_digit {b : UInt8} (h1 : isSpace b = true) (h2 : isDigit b = true) : False := by
  simp only [isSpace, Bool.or_eq_true, beq_iff_eq] at h1
  rcases h1 with ((rfl | rfl) | rfl) | rfl <;> revert h2 <;> decide

theorem of_space {bol : Bool} {b : UInt8} {line : List UInt8} {K : TokenKind} {k : Nat} (h : First bol (b :: line) K k) (hb : isSpace b = true) :
    K = Whitespace ∧ k = ((b :: line).takeWhile isSpace).length := by
  have hn := lookup_none (b := b) (.inl hb)
  cases h with
  | delim _ hc hk hl =>
    obtain ⟨k, rfl⟩ : ∃ n, k = n + 1 := ⟨k - 1, by omega⟩
    rw [List.replicate_succ] at hl
    cases hl
    have : ∀ c ∈ bs "_-*=.+/", isSpace c = false := by decide
    rw [this _ hc] at hb
    cases hb
  | ticks _ hl =>
    have : b = ch '`' := by
      have := congrArg List.head? hl
      simpa using this
    subst this
    exact absurd hb (by decide)
  | one hh hl => cases hh; rw [hn] at hl; cases hl
  | run hh hl => cases hh; rw [hn] at hl; cases hl
  | space => exact ⟨rfl, rfl⟩
  | digits hh hd => cases hh; exact (space_digit hb hd).elim
  | callout hh => cases hh; exact absurd hb (by decide)
  | xml hh => cases hh; exact absurd hb (by decide)
  | less hh => cases hh; exact absurd hb (by decide)
  | term hh ho => cases hh; rcases ho with rfl | rfl <;> exact absurd hb (by decide)
  | colon hh ho => cases hh; rcases ho with ⟨rfl, _⟩ | ⟨rfl, _⟩ <;> exact absurd hb (by decide)
  | other hh _ hs => cases hh; rw [hb] at hs; cases hs

theorem of_digit {bol : Bool} {b : UInt8} {line : List UInt8} {K : TokenKind} {k : Nat} (h : First bol (b :: line) K k) (hb : isDigit b = true) :
    K = Digits ∧ k = ((b :: line).takeWhile isDigit).length := by
  have hn := lookup_none (b := b) (.inr (.inl hb))
  cases h with
  | delim _ hc hk hl =>
    obtain ⟨k, rfl⟩ : ∃ n, k = n + 1 := ⟨k - 1, by omega⟩
    rw [List.replicate_succ] at hl
    cases hl
    have : ∀ c ∈ bs "_-*=.+/", isDigit c = false := by decide
    rw [this _ hc] at hb
    cases hb
  | ticks _ hl =>
    have : b = ch '`' := by
      have := congrArg List.head? hl
      simpa using this
    subst this
    exact absurd hb (by decide)
  | one hh hl => cases hh; rw [hn] at hl; cases hl
  | run hh hl => cases hh; rw [hn] at hl; cases hl
  | digits => exact ⟨rfl, rfl⟩
  | space hh hd => cases hh; exact (space_digit hd hb).elim
  | callout hh => cases hh; exact absurd hb (by decide)
  | xml hh => cases hh; exact absurd hb (by decide)
  | less hh => cases hh; exact absurd hb (by decide)
  | term hh ho => cases hh; rcases ho with rfl | rfl <;> exact absurd hb (by decide)
  | colon hh ho => cases hh; rcases ho with ⟨rfl, _⟩ | ⟨rfl, _⟩ <;> exact absurd hb (by decide)
  | other hh _ _ hs => cases hh; rw [hb] at hs; cases hs

theorem of_less {bol : Bool} {line : List UInt8} {K : TokenKind} {k : Nat} (h : First bol (ch '<' :: line) K k) :
    K = CalloutNumber ∧ (calloutLen (ch '<' :: line) = some k ∨ line[0]? = some (ch '!')) ∨ K = LessThan ∧ k = 1 ∧ calloutLen (ch '<' :: line) = none := by
  have hn := lookup_none (b := ch '<') (by decide)
  cases h with
  | delim _ hc hk hl =>
    obtain ⟨k, rfl⟩ : ∃ n, k = n + 1 := ⟨k - 1, by omega⟩
    rw [List.replicate_succ] at hl
    injection hl with hl
    subst hl
    exact absurd hc (by decide)
  | ticks _ hl =>
    have := congrArg List.head? hl
    simp at this
  | one hh hl => cases hh; rw [hn] at hl; cases hl
  | run hh hl => cases hh; rw [hn] at hl; cases hl
  | digits hh hd => cases hh; exact absurd hd (by decide)
  | space hh hd => cases hh; exact absurd hd (by decide)
  | callout hh h => exact .inl ⟨rfl, .inl h⟩
  | xml hh h => exact .inl ⟨rfl, .inr h⟩
  | less hh h => exact .inr ⟨rfl, rfl, h⟩
  | term hh ho => cases hh; exact absurd ho (by decide)
  | colon hh ho => cases hh; rcases ho with ⟨h, _⟩ | ⟨h, _⟩ <;> exact absurd h (by decide)
  | other hh _ _ _ h => cases hh; exact absurd rfl h

/-- a byte of the table: its token, unless the line is a delimiter line -/
theorem of_table {bol : Bool} {b : UInt8} {line : List UInt8} {K : TokenKind} {k : Nat} {x : Simple} (h : First bol (b :: line) K k) (hl : simpleTable.lookup b = some x) :
    (x = .one K ∧ k = 1 ∨ x = .run K ∧ k = ((b :: line).takeWhile (· == b)).length) ∨
    K = DelimiterLine ∧ bol = true ∧ (b ∈ bs "_-*=.+/" ∧ (k = 2 ∧ b = ch '-' ∨ 4 ≤ k) ∧ b :: line = List.replicate k b ∨ b = ch '`') := by
  have no : ∀ {y : UInt8}, (isSpace y = true ∨ isDigit y = true ∨ y = ch '<' ∨ y = ch ':' ∨ y = ch ';') → y = b → False := by
    rintro y hy rfl
    rw [lookup_none hy] at hl
    cases hl
  cases h with
  | delim h1 hc hk hll =>
    obtain ⟨k, rfl⟩ : ∃ n, k = n + 1 := ⟨k - 1, by omega⟩
    rw [List.replicate_succ] at hll
    cases hll
    exact .inr ⟨rfl, h1, .inl ⟨hc, hk, rfl⟩⟩
  | ticks h1 h2 =>
    refine .inr ⟨rfl, h1, .inr ?_⟩
    have := congrArg List.head? h2
    simpa using this
  | one hh h => cases hh; rw [hl] at h; cases h; exact .inl (.inl ⟨rfl, rfl⟩)
  | run hh h => cases hh; rw [hl] at h; cases h; exact .inl (.inr ⟨rfl, rfl⟩)
  | digits hh hd => cases hh; exact (no (.inr (.inl hd)) rfl).elim
  | space hh hd => cases hh; exact (no (.inl hd) rfl).elim
  | callout hh => cases hh; exact (no (by decide) rfl).elim
  | xml hh => cases hh; exact (no (by decide) rfl).elim
  | less hh => cases hh; exact (no (by decide) rfl).elim
  | term hh ho => cases hh; exact (no (by rcases ho with rfl | rfl <;> decide) rfl).elim
  | colon hh ho => cases hh; exact (no (by rcases ho with ⟨rfl, _⟩ | ⟨rfl, _⟩ <;> decide) rfl).elim
  | other hh h => cases hh; rw [hl] at h; cases h

/-! tokens one after the other -/

variable {plugins : List (List UInt8)}

theorem uncons {bol : Bool} {line : List UInt8} {t : Tok} {ts : List Tok} (h : LexAt plugins bol line (t :: ts)) :
    ∃ k, 0 < k ∧ k ≤ line.length ∧ First bol line t.kind k ∧ t.lexeme = line.take k ∧ LexAt plugins false (line.drop k) ts := by
  cases line with
  | nil => cases h.nil
  | cons b l =>
    obtain ⟨k, K, st, sp, ts', h0, h1, h2, h3, h4⟩ := h.cons
    cases h3
    exact ⟨k, h0, h1, h2, rfl, h4⟩

theorem none_left {bol : Bool} {line : List UInt8} (h : LexAt plugins bol line []) : line = [] := by
  cases line with
  | nil => rfl
  | cons b l =>
    obtain ⟨k, K, st, sp, ts', h0, h1, h2, h3, h4⟩ := h.cons
    cases h3

theorem some_left {bol : Bool} {line : List UInt8} {toks : List Tok} (h : LexAt plugins bol line toks) (hne : line ≠ []) : ∃ t ts, toks = t :: ts := by
  cases toks with
  | nil => exact absurd (none_left h) hne
  | cons t ts => exact ⟨t, ts, rfl⟩

theorem take_takeWhile {p : UInt8 → Bool} (l : List UInt8) : l.take (l.takeWhile p).length = l.takeWhile p ∧ l.drop (l.takeWhile p).length = l.dropWhile p := by
  induction l with
  | nil => simp
  | cons x l ih =>
    rw [List.takeWhile_cons, List.dropWhile_cons]
    split
    · simp [ih.1, ih.2]
    · simp

theorem takeWhile_run {c : UInt8} (l : List UInt8) : l.takeWhile (· == c) = List.replicate (l.takeWhile (· == c)).length c := by
  refine List.eq_replicate_iff.2 ⟨rfl, fun x hx => ?_⟩
  have := List.all_takeWhile (p := (· == c)) (l := l)
  rw [List.all_eq_true] at this
  exact beq_iff_eq.1 (this x hx)

theorem takeWhile_append_stop {p : UInt8 → Bool} {a b : List UInt8} (ha : ∀ x ∈ a, p x = true) (hb : ∀ x, b.head? = some x → p x = false) :
    (a ++ b).takeWhile p = a ∧ (a ++ b).dropWhile p = b := by
  induction a with
  | nil =>
    cases b with
    | nil => simp
    | cons x b => have := hb x rfl; simp [this]
  | cons x a ih =>
    have := ih (fun y hy => ha y (by simp [hy]))
    simp [ha x (by simp), this.1, this.2]

/-- a token of a kind that takes all bytes of a class -/
theorem span_token {bol : Bool} {line : List UInt8} {t : Tok} {ts : List Tok} {p : UInt8 → Bool} (h : LexAt plugins bol line (t :: ts))
    (hk : ∀ k, First bol line t.kind k → k = (line.takeWhile p).length) :
    t.lexeme = line.takeWhile p ∧ t.lexeme ≠ [] ∧ LexAt plugins false (line.dropWhile p) ts := by
  obtain ⟨k, h0, h1, h2, h3, h4⟩ := uncons h
  have e := hk k h2
  subst e
  rw [(take_takeWhile line).1] at h3
  rw [(take_takeWhile line).2] at h4
  refine ⟨h3, ?_, h4⟩
  rw [h3]
  intro hn
  rw [hn] at h0
  simp at h0

/-- a white space token, and no white space after it -/
theorem space_token {bol : Bool} {line : List UInt8} {t : Tok} {ts : List Tok} (h : LexAt plugins bol line (t :: ts)) (hk : t.kind = Whitespace) :
    t.lexeme = line.takeWhile isSpace ∧ t.lexeme ≠ [] ∧ LexAt plugins false (line.dropWhile isSpace) ts :=
  span_token h (fun k hf => by rw [hk] at hf; exact (first_space hf).2)

theorem space_lexed {bol : Bool} {sp rest : List UInt8} {toks : List Tok} (h : LexAt plugins bol (sp ++ rest) toks) (hne : sp ≠ []) (hs : ∀ x ∈ sp, isSpace x = true)
    (hr : ∀ x, rest.head? = some x → isSpace x = false) : ∃ t ts, toks = t :: ts ∧ t.kind = Whitespace ∧ t.lexeme = sp ∧ LexAt plugins false rest ts := by
  obtain ⟨t, ts, rfl⟩ := some_left h (by simp [hne])
  have hk : t.kind = Whitespace := by
    obtain ⟨k, h0, h1, h2, h3, h4⟩ := uncons h
    cases sp with
    | nil => exact absurd rfl hne
    | cons x sp => exact (of_space h2 (hs x (by simp))).1
  obtain ⟨h1, h2, h3⟩ := space_token h hk
  obtain ⟨e1, e2⟩ := takeWhile_append_stop hs hr
  rw [e1] at h1
  rw [e2] at h3
  exact ⟨t, ts, rfl, hk, h1, h3⟩

/-- a run of one byte, of a kind that is in the table -/
theorem run_lexed {bol : Bool} {n : Nat} {b : UInt8} {K : TokenKind} {rest : List UInt8} {toks : List Tok} (h : LexAt plugins bol (List.replicate (n + 1) b ++ rest) toks)
    (hl : simpleTable.lookup b = some (.run K)) (hb : b ≠ ch '`') (hr : rest.head? ≠ some b) (hne : rest ≠ [] ∨ bol = false ∨ b ∉ bs "_-*=.+/" ∨ n < 3 ∧ (b = ch '-' → n ≠ 1)) :
    ∃ t ts, toks = t :: ts ∧ t.kind = K ∧ t.lexeme = List.replicate (n + 1) b ∧ LexAt plugins false rest ts := by
  obtain ⟨t, ts, rfl⟩ := some_left h (by simp)
  obtain ⟨k, h0, h1, h2, h3, h4⟩ := uncons h
  rw [List.replicate_succ, List.cons_append] at h2
  have hr' : ∀ x, rest.head? = some x → (x == b) = false := by
    intro x hx
    rw [beq_eq_false_iff_ne]
    rintro rfl
    exact hr hx
  have e := takeWhile_append_stop (p := (· == b)) (a := List.replicate (n + 1) b) (b := rest) (by intro x hx; rw [List.mem_replicate] at hx; simp [hx.2]) hr'
  rw [List.replicate_succ, List.cons_append] at e
  rcases of_table h2 hl with (⟨h, _⟩ | ⟨hK, hk⟩) | ⟨_, hbol, ⟨hm, hkk, hrep⟩ | hx⟩
  · cases h
  · cases hK
    rw [e.1] at hk
    refine ⟨t, ts, rfl, rfl, ?_, ?_⟩
    · rw [h3, hk, ← List.replicate_succ, List.take_left' rfl]
    · rw [hk, ← List.replicate_succ, List.drop_left' rfl] at h4
      exact h4
  · rcases hne with hne | hne | hne | hne
    · exfalso
      cases rest with
      | nil => exact hne rfl
      | cons x rest =>
        have : x ∈ List.replicate k b := by rw [← hrep]; simp
        rw [List.mem_replicate] at this
        exact hr (by rw [this.2]; rfl)
    · rw [hbol] at hne; cases hne
    · exact absurd hm hne
    · exfalso
      cases rest with
      | nil =>
        have := congrArg List.length hrep
        simp only [List.append_nil, List.length_cons, List.length_replicate] at this
        rcases hkk with ⟨hkk, hd⟩ | hkk
        · exact hne.2 hd (by omega)
        · omega
      | cons x rest =>
        have : x ∈ List.replicate k b := by rw [← hrep]; simp
        rw [List.mem_replicate] at this
        exact hr (by rw [this.2]; rfl)
  · exact absurd hx hb

/-- a byte that is a token of its own -/
theorem one_lexed {bol : Bool} {b : UInt8} {K : TokenKind} {rest : List UInt8} {toks : List Tok} (h : LexAt plugins bol (b :: rest) toks)
    (hl : simpleTable.lookup b = some (.one K)) (hb : b ≠ ch '`') (hne : (∃ x ∈ rest, x ≠ b) ∨ bol = false ∨ b ∉ bs "_-*=.+/" ∨ rest.length < 3 ∧ b ≠ ch '-') :
    ∃ t ts, toks = t :: ts ∧ t.kind = K ∧ t.lexeme = [b] ∧ LexAt plugins false rest ts := by
  obtain ⟨t, ts, rfl⟩ := some_left h (by simp)
  obtain ⟨k, h0, h1, h2, h3, h4⟩ := uncons h
  rcases of_table h2 hl with (⟨hK, hk⟩ | ⟨h, _⟩) | ⟨_, hbol, ⟨hm, hkk, hrep⟩ | hx⟩
  · cases hK
    subst hk
    exact ⟨t, ts, rfl, rfl, h3, h4⟩
  · cases h
  · rcases hne with ⟨x, hx, hne⟩ | hne | hne | hne
    · exfalso
      have : x ∈ List.replicate k b := by rw [← hrep]; simp [hx]
      rw [List.mem_replicate] at this
      exact hne this.2
    · rw [hbol] at hne; cases hne
    · exact absurd hm hne
    · exfalso
      have := congrArg List.length hrep
      simp only [List.length_cons, List.length_replicate] at this
      rcases hkk with ⟨_, hd⟩ | hkk
      · exact hne.2 hd
      · omega
  · exact absurd hx hb

/-! headings -/

theorem isSpace_iff {x : UInt8} : isSpace x = true ↔ x = 32 ∨ x = 9 ∨ x = 11 ∨ x = 12 := by
  simp only [isSpace, Bool.or_eq_true, beq_iff_eq, or_assoc]

theorem blank_iff {s : List UInt8} : Blank s ↔ ∀ x ∈ s, isSpace x = true := by
  simp only [Blank, isSpace_iff]

theorem tight_iff {s : List UInt8} : Tight s ↔ ∀ x, s.head? = some x → isSpace x = false := by
  simp only [Tight, ← isSpace_iff, Bool.not_eq_true]

theorem tight_dropWhile {l : List UInt8} : Tight (l.dropWhile isSpace) := by
  rw [tight_iff]
  intro x hx
  have := List.head?_dropWhile_not isSpace l
  rw [hx] at this
  simpa using this

theorem blank_takeWhile {l : List UInt8} : Blank (l.takeWhile isSpace) := by
  rw [blank_iff]
  have := List.all_takeWhile (p := isSpace) (l := l)
  rwa [List.all_eq_true] at this

theorem startsSeq_cons {K : TokenKind} {ks : List TokenKind} {l : List Tok} : startsSeq (K :: ks) l = true ↔ ∃ t ts, l = t :: ts ∧ t.kind = K ∧ startsSeq ks ts = true := by
  cases l with
  | nil => simp [startsSeq]
  | cons t ts =>
    simp only [startsSeq, List.map_cons, List.isPrefixOf, Bool.and_eq_true, beq_iff_eq, List.cons.injEq]
    constructor
    · rintro ⟨rfl, h⟩; exact ⟨t, ts, ⟨rfl, rfl⟩, rfl, h⟩
    · rintro ⟨_, _, ⟨rfl, rfl⟩, rfl, h⟩; exact ⟨rfl, h⟩

theorem startsSeq_nil {l : List Tok} : startsSeq [] l = true := by
  cases l <;> rfl

/-- the hashes at the start of a line -/
theorem hashes : ∀ (toks : List Tok) (bol : Bool) (line : List UInt8), LexAt plugins bol line toks →
    ∃ rest, line = List.replicate (toks.takeWhile fun t => t.kind == Hash).length (ch '#') ++ rest ∧ rest.head? ≠ some (ch '#') ∧
      ∃ bol', LexAt plugins bol' rest (toks.dropWhile fun t => t.kind == Hash) := by
  intro toks
  induction toks with
  | nil =>
    intro bol line h
    have := none_left h
    subst this
    exact ⟨[], rfl, by simp, bol, h⟩
  | cons t ts ih =>
    intro bol line h
    obtain ⟨k, h0, h1, h2, h3, h4⟩ := uncons h
    by_cases hk : t.kind = Hash
    · rw [hk] at h2
      obtain ⟨e1, rfl⟩ := first_hash h2
      obtain ⟨rest, r1, r2, bol', r3⟩ := ih _ _ h4
      cases line with
      | nil => cases e1
      | cons b l =>
        cases e1
        simp only [List.drop_succ_cons, List.drop_zero] at r1
        refine ⟨rest, ?_, r2, bol', ?_⟩
        · simp only [List.takeWhile_cons, hk, beq_self_eq_true, if_true, List.length_cons, List.replicate_succ, List.cons_append]
          rw [← r1]
        · simp only [List.dropWhile_cons, hk, beq_self_eq_true, if_true]
          exact r3
    · refine ⟨line, ?_, ?_, bol, ?_⟩
      · simp [hk]
      · intro e
        cases line with
        | nil => cases e
        | cons b l =>
          cases e
          obtain ⟨t', ts', e', hk', _⟩ := one_lexed h (K := Hash) rfl (by decide) (.inr (.inr (.inl (by decide))))
          cases e'
          exact hk hk'
      · simp only [List.dropWhile_cons, beq_eq_false_iff_ne.2 hk]
        exact h

theorem hashes_lexed : ∀ (n : Nat) (bol : Bool) (rest : List UInt8) (toks : List Tok), LexAt plugins bol (List.replicate n (ch '#') ++ rest) toks → rest.head? ≠ some (ch '#') →
    (toks.takeWhile fun t => t.kind == Hash).length = n := by
  intro n bol rest toks h hr
  obtain ⟨rest', h1, h2, _⟩ := hashes toks bol _ h
  generalize (toks.takeWhile fun t => t.kind == Hash).length = m at h1
  clear h
  induction n generalizing m with
  | zero =>
    cases m with
    | zero => rfl
    | succ m =>
      simp only [List.replicate_zero, List.nil_append, List.replicate_succ, List.cons_append] at h1
      rw [h1] at hr
      simp at hr
  | succ n ih =>
    cases m with
    | zero =>
      simp only [List.replicate_zero, List.nil_append, List.replicate_succ, List.cons_append] at h1
      rw [← h1] at h2
      simp at h2
    | succ m =>
      simp only [List.replicate_succ, List.cons_append, List.cons.injEq, true_and] at h1
      rw [ih _ h1]

theorem dropWhile_eq_drop {α : Type} {p : α → Bool} (l : List α) : l.dropWhile p = l.drop (l.takeWhile p).length := by
  induction l with
  | nil => simp
  | cons x l ih =>
    rw [List.takeWhile_cons, List.dropWhile_cons]
    split
    · simp [ih]
    · simp

theorem containsSeq_of {ks : List TokenKind} {a b : List Tok} (h : startsSeq ks b = true) (hb : b ≠ []) : containsSeq ks (a ++ b) = true := by
  induction a with
  | nil =>
    cases b with
    | nil => exact absurd rfl hb
    | cons t b => simp [containsSeq, h]
  | cons t a ih => simp [containsSeq, ih]

theorem heading_iff {toks : List Tok} {bol : Bool} {line : List UInt8} (h : LexAt plugins bol line toks) (l : Nat) :
    headingLevel toks = some l ↔ ∃ n title, Heading line n title ∧ l = n % 256 := by
  constructor
  · intro hh
    unfold headingLevel at hh
    split at hh
    · rename_i hc
      simp only [Bool.and_eq_true, decide_eq_true_eq] at hc
      obtain ⟨hc, hlen⟩ := hc
      obtain ⟨t, ts, rfl, hk, hc⟩ := startsSeq_cons.1 hc
      obtain ⟨w, us, rfl, hw, -⟩ := startsSeq_cons.1 hc
      obtain ⟨x1, x2, x3⟩ := span_token (p := (· == ch '=')) h (fun k hf => by rw [hk] at hf; exact (first_equal hf).2)
      obtain ⟨y1, y2, y3⟩ := space_token x3 hw
      simp only [List.getElem?_cons_zero, Option.map_some, Option.some.injEq] at hh
      refine ⟨t.lexeme.length - 1, (line.dropWhile (· == ch '=')).dropWhile isSpace, ⟨ch '=', by simp, w.lexeme, ?_, y2, ?_, ?_, tight_dropWhile⟩, hh.symm⟩
      · have hl : t.lexeme.length - 1 + 1 = t.lexeme.length := by
          have := List.length_pos_iff.2 x2; omega
        rw [hl]
        have : List.replicate t.lexeme.length (ch '=') = t.lexeme := by rw [x1]; exact (takeWhile_run _).symm
        rw [this, x1, y1, List.append_assoc, List.takeWhile_append_dropWhile, List.takeWhile_append_dropWhile]
      · rw [y1]; exact blank_takeWhile
      · intro e
        rw [e] at y3
        have := y3.nil
        subst this
        simp at hlen
    · split at hh
      · rename_i _ hc
        simp only at hh
        split at hh
        · rename_i hc2
          simp only [Bool.and_eq_true, decide_eq_true_eq] at hc hc2
          obtain ⟨⟨hc, _⟩, _⟩ := hc
          obtain ⟨hlen, hws⟩ := hc2
          cases hh
          obtain ⟨rest, r1, r2, bol', r3⟩ := hashes toks _ _ h
          rw [dropWhile_eq_drop] at r3
          generalize hn : (toks.takeWhile fun t => t.kind == Hash).length = n at r1 r3 hlen hws
          obtain ⟨w, us, e⟩ : ∃ w us, toks.drop n = w :: us := by
            cases e : toks.drop n with
            | nil => rw [List.drop_eq_nil_iff] at e; omega
            | cons w us => exact ⟨w, us, rfl⟩
          have hw : w.kind = Whitespace := by
            have : toks[n]? = some w := by
              have := congrArg List.head? e
              rw [List.head?_drop] at this
              exact this
            unfold kindAt at hws
            rw [this] at hws
            exact Option.some.inj hws
          rw [e] at r3
          obtain ⟨y1, y2, y3⟩ := space_token r3 hw
          have hn0 : 0 < n := by
            rw [← hn]
            unfold kindAt at hc
            cases toks with
            | nil => simp at hc
            | cons t ts =>
              simp at hc
              simp [hc]
          refine ⟨n - 1, rest.dropWhile isSpace, ⟨ch '#', by simp, w.lexeme, ?_, y2, ?_, ?_, tight_dropWhile⟩, rfl⟩
          · rw [Nat.sub_add_cancel hn0, y1, List.append_assoc, List.takeWhile_append_dropWhile, r1]
          · rw [y1]; exact blank_takeWhile
          · intro e2
            rw [e2] at y3
            have := y3.nil
            subst this
            have := congrArg List.length e
            simp only [List.length_drop, List.length_cons, List.length_nil] at this
            omega
        · cases hh
      · cases hh
  · rintro ⟨n, title, ⟨mark, hm, sp, rfl, hs1, hs2, ht1, ht2⟩, rfl⟩
    have hsn : (sp ++ title).head? ≠ some mark := by
      cases sp with
      | nil => exact absurd rfl hs1
      | cons x sp =>
        rintro e
        cases e
        have := hs2 mark (by simp)
        simp only [List.mem_cons, List.not_mem_nil, or_false] at hm
        rcases hm with rfl | rfl <;> revert this <;> decide
    rw [List.append_assoc] at h
    simp only [List.mem_cons, List.not_mem_nil, or_false] at hm
    rcases hm with rfl | rfl
    · obtain ⟨t, ts, rfl, hk, hl, h1⟩ := run_lexed (K := EqualSigns) h rfl (by decide) hsn (.inl (by simp [hs1]))
      obtain ⟨w, us, rfl, hw, hwl, h2⟩ := space_lexed h1 hs1 (blank_iff.1 hs2) (tight_iff.1 ht2)
      obtain ⟨u, vs, rfl⟩ := some_left h2 ht1
      unfold headingLevel
      rw [if_pos]
      · simp [hl]
      · simp only [Bool.and_eq_true, decide_eq_true_eq, List.length_cons]
        exact ⟨startsSeq_cons.2 ⟨_, _, rfl, hk, startsSeq_cons.2 ⟨_, _, rfl, hw, startsSeq_nil⟩⟩, by omega⟩
    · have hcount := hashes_lexed (n + 1) bol (sp ++ title) toks h hsn
      obtain ⟨rest, r1, r2, bol', r3⟩ := hashes toks _ _ h
      rw [hcount] at r1
      have hr := List.append_cancel_left r1
      subst hr
      obtain ⟨w, us, he, hw, hwl, h2⟩ := space_lexed r3 hs1 (blank_iff.1 hs2) (tight_iff.1 ht2)
      obtain ⟨u, vs, rfl⟩ := some_left h2 ht1
      have htoks : toks = (toks.takeWhile fun t => t.kind == Hash) ++ w :: u :: vs := by
        rw [← he, List.takeWhile_append_dropWhile]
      have hall := List.all_takeWhile (p := fun t : Tok => t.kind == Hash) (l := toks)
      generalize (toks.takeWhile fun t => t.kind == Hash) = hs at hcount htoks hall
      have hlen : toks.length = n + 1 + (vs.length + 2) := by rw [htoks, List.length_append, hcount]; rfl
      have hk0 : kindAt toks 0 = some Hash := by
        rw [htoks]
        cases hs with
        | nil => cases hcount
        | cons t hs =>
          simp only [List.all_cons, Bool.and_eq_true, beq_iff_eq] at hall
          simp [kindAt, hall.1]
      unfold headingLevel
      rw [if_neg, if_pos]
      · have htw : (toks.takeWhile fun t => t.kind == Hash).length = n + 1 := by
          rw [htoks, List.takeWhile_append_of_pos (by simpa using hall)]
          simp [hw, hcount]
        simp only [htw]
        rw [if_pos]
        · simp
        · simp only [Bool.and_eq_true, decide_eq_true_eq]
          refine ⟨by omega, ?_⟩
          unfold kindAt
          rw [htoks, List.getElem?_append_right (by omega), hcount, Nat.sub_self]
          simp [hw]
      · simp only [Bool.and_eq_true, decide_eq_true_eq]
        refine ⟨⟨hk0, ?_⟩, by omega⟩
        rw [htoks]
        obtain ⟨hs', x, rfl⟩ := (List.eq_nil_or_concat hs).resolve_left (by rintro rfl; cases hcount)
        rw [List.concat_eq_append, List.append_assoc]
        have hx : x.kind = Hash := by
          rw [List.concat_eq_append, List.all_append] at hall
          simp only [Bool.and_eq_true, List.all_cons, beq_iff_eq] at hall
          exact hall.2.1
        exact containsSeq_of (startsSeq_cons.2 ⟨x, w :: u :: vs, rfl, hx, startsSeq_cons.2 ⟨_, _, rfl, hw, startsSeq_nil⟩⟩) (by simp)
      · intro hc
        simp only [Bool.and_eq_true] at hc
        obtain ⟨t, ts, rfl, hk, _⟩ := startsSeq_cons.1 hc.1
        unfold kindAt at hk0
        simp [hk] at hk0

end Verif.LineKinds

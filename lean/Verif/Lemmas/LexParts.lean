import Verif.Lemmas.PhraseText
/-! Lemmas: the tokens of a text, part by part. -/
namespace Verif.Inlines
open Verif TokenKind

/-- the tokens of the text after what has been read -/
def Lexes (P rest : List Char) (ts : List Tok) : Prop := ∀ fuel, rest.length < fuel →
  ∃ toks d, Lexer.lexFrom ((P ++ rest).map Lexer.ch) [] 0 fuel P.length = some (toks, d) ∧ toks.map (toTok ((P ++ rest).map Lexer.ch)) = ts

theorem Lexes.nil (P : List Char) : Lexes P [] [] := by
  intro fuel hf
  cases fuel with
  | zero => simp at hf
  | succ fuel =>
    refine ⟨[], true, ?_, rfl⟩
    unfold Lexer.lexFrom
    rw [Lexer.nextToken_eof (by simp)]
    rfl

theorem Lexes.tokens {s : String} {ts : List Tok} (h : Lexes [] s.toList ts) : tokensOf s = ts := by
  obtain ⟨toks, d, h1, h2⟩ := h ((Lexer.bs s).length + 1) (by simp)
  unfold tokensOf
  dsimp only
  simp only [List.nil_append, List.length_nil] at h1
  rw [h1, ← h2]
  rfl

theorem Lexes.step {P w b : List Char} {k : TokenKind} {ts : List Tok} (hP : ∀ c ∈ P, c.toNat < 128) (hw : ∀ c ∈ w, c.toNat < 128)
    (h0 : w ≠ []) (h : Lexer.nextToken ((P ++ (w ++ b)).map Lexer.ch) [] P.length =
      some (some ⟨k, P.length, P.length + w.length, P.length + w.length⟩, P.length + w.length)) (hb : Lexes (P ++ w) b ts) :
    Lexes P (w ++ b) ({ kind := k, lexeme := w, before := P.getLast?, loc := P.length } :: ts) := by
  intro fuel hf
  have hwl := List.length_pos_iff.2 h0
  cases fuel with
  | zero => simp at hf
  | succ fuel =>
    obtain ⟨toks, d, g1, g2⟩ := hb fuel (by rw [List.length_append] at hf; omega)
    rw [← List.append_assoc] at h ⊢
    have hslice : Lexer.slice ((P ++ w ++ b).map Lexer.ch) P.length (P.length + w.length) = some (w.map Lexer.ch) := by
      rw [Lexer.slice, if_pos ⟨by omega, by simp⟩]
      congr 1
      rw [← List.map_drop, ← List.map_take]
      congr 1
      simp [List.append_assoc]
    refine ⟨⟨k, P.length, P.length + w.length, w.map Lexer.ch⟩ :: toks, d, ?_, ?_⟩
    · unfold Lexer.lexFrom
      rw [h]
      simp only [Option.bind_eq_bind, Option.bind_some, Option.pure_def]
      rw [if_neg (by omega), hslice]
      simp only [Option.bind_some]
      rw [List.length_append] at g1
      rw [g1]
      rfl
    · have hlex : (w.map Lexer.ch).map chr = w := by
        rw [List.map_map]
        conv => rhs; rw [← List.map_id w]
        exact List.map_congr_left fun c hc => chr_ch (hw c hc)
      rw [List.map_cons, g2]
      congr 1
      simp only [toTok, hlex, Tok.mk.injEq, true_and, and_true]
      split
      · have : P = [] := List.length_eq_zero_iff.1 ‹_›
        subst this; rfl
      · rename_i h0
        have hp : P ≠ [] := fun e => h0 (by simp [e])
        rw [List.append_assoc, List.getElem?_map, List.getElem?_append_left (by omega), ← List.getLast?_eq_getElem?]
        rw [List.getLast?_eq_some_getLast hp]
        simp only [Option.map_some, Option.some.injEq]
        exact chr_ch (hP _ (List.getLast_mem hp))

theorem scan_exact {f : UInt8 → Bool} {pre w r : List Char} (hw : ∀ d ∈ w, f (Lexer.ch d) = true)
    (hr : ∀ d, r.head? = some d → f (Lexer.ch d) = false) : Lexer.scan f ((pre ++ (w ++ r)).map Lexer.ch) pre.length = pre.length + w.length := by
  unfold Lexer.scan
  rw [← List.map_drop, List.drop_left, List.map_append, List.takeWhile_append_of_pos (by
    intro b hb
    obtain ⟨d, hd, rfl⟩ := List.mem_map.1 hb
    exact hw d hd)]
  cases r with
  | nil => simp
  | cons d r => simp [hr d rfl]

/-- a number -/
theorem next_digits {pre w r : List Char} (h0 : w ≠ []) (hw : ∀ d ∈ w, isDigitChar d = true) (hr : ∀ d, r.head? = some d → okChar d = true ∧ isDigitChar d = false) :
    Lexer.nextToken ((pre ++ (w ++ r)).map Lexer.ch) [] pre.length =
      some (some ⟨Digits, pre.length, pre.length + w.length, pre.length + w.length⟩, pre.length + w.length) := by
  have hdw : ∀ {d}, isDigitChar d = true → isWordChar d = true := by
    intro d hd
    simp only [isDigitChar, isWordChar, Bool.or_eq_true, Bool.and_eq_true, decide_eq_true_eq] at hd ⊢
    exact .inr hd
  have hdb : ∀ {d}, isDigitChar d = true → Lexer.isDigit (Lexer.ch d) = true := by
    intro d hd
    have : ∀ n : Fin 128, isDigitChar (Char.ofNat n) = true → Lexer.isDigit (Lexer.ch (Char.ofNat n)) = true := by decide +kernel
    have := this ⟨d.toNat, ok_ascii (by simp [okChar, hdw hd])⟩
    simp only [Char.ofNat_toNat] at this
    exact this hd
  cases w with
  | nil => exact absurd rfl h0
  | cons c w =>
    have hc := hdw (hw c (by simp))
    obtain ⟨b1, b2, b3, b4, b5, b6, b7, b8, b9, b10, b11, b12, b13, b14⟩ := word_byte hc
    rw [List.cons_append]
    have hdelim : Lexer.atDelimiterLine ((pre ++ c :: (w ++ r)).map Lexer.ch) pre.length = none := no_delimiter (get_at c) (.inl b2)
    rw [Option.isNone_iff_eq_none] at b1
    unfold Lexer.nextToken
    rw [hdelim, get_at]
    dsimp only
    rw [b1]
    have hscan := scan_exact (f := Lexer.isDigit) (pre := pre ++ [c]) (w := w) (r := r) (fun d hd => hdb (hw d (by simp [hd]))) (by
      intro d hd
      cases h : Lexer.isDigit (Lexer.ch d) with
      | false => rfl
      | true =>
        have := digit_byte (ok_ascii (hr d hd).1) h
        rw [(hr d hd).2] at this; cases this)
    simp only [List.append_assoc, List.singleton_append, List.length_append, List.length_singleton] at hscan
    simp only [Lexer.otherArm, b3, b4, b5, b6, b7, hdb (hw c (by simp)), false_and, if_false, if_true, Bool.false_eq_true, Option.map_some,
      Lexer.repeating, hscan]
    simp; omega

/-- a word -/
theorem next_letters {pre w r : List Char} {c : Char} (hc : isWordChar c = true) (hcd : isDigitChar c = false) (hw : ∀ d ∈ w, isWordChar d = true)
    (hr : ∀ d, r.head? = some d → okChar d = true ∧ isWordChar d = false) :
    Lexer.nextToken ((pre ++ (c :: w ++ r)).map Lexer.ch) [] pre.length =
      some (some ⟨Word, pre.length, pre.length + (c :: w).length, pre.length + (c :: w).length⟩, pre.length + (c :: w).length) := by
  obtain ⟨b1, b2, b3, b4, b5, b6, b7, b8, b9, b10, b11, b12, b13, b14⟩ := word_byte hc
  rw [List.cons_append]
  have hdelim : Lexer.atDelimiterLine ((pre ++ c :: (w ++ r)).map Lexer.ch) pre.length = none := no_delimiter (get_at c) (.inl b2)
  rw [Option.isNone_iff_eq_none] at b1
  have hd : Lexer.isDigit (Lexer.ch c) = false := by
    cases h : Lexer.isDigit (Lexer.ch c) with
    | false => rfl
    | true =>
      have := digit_byte (ok_ascii (by simp [okChar, hc])) h
      rw [hcd] at this; cases this
  unfold Lexer.nextToken
  rw [hdelim, get_at]
  dsimp only
  rw [b1]
  simp only [Lexer.otherArm, b3, b4, b5, b6, b7, b8, b9, b10, b11, b12, b13, b14, hd, false_and, or_self, if_false, Bool.false_eq_true]
  unfold Lexer.word
  have hscan := scan_exact (f := fun b => !Lexer.wordBoundary true b) (pre := pre ++ [c]) (w := w) (r := r)
    (fun d hd => by simp [(ok_byte (c := d) (by simp [okChar, hw d hd])).1, hw d hd]) (fun d hd => by simp [(ok_byte (hr d hd).1).1, (hr d hd).2])
  simp only [List.append_assoc, List.singleton_append, List.length_append, List.length_singleton] at hscan
  dsimp only
  rw [hscan]
  have hsl : Lexer.slice ((pre ++ c :: (w ++ r)).map Lexer.ch) (pre.length + 1 - 1) (pre.length + 1 + w.length) = some _ :=
    if_pos ⟨by omega, by simp; omega⟩
  rw [hsl]
  have hstop : ((pre ++ c :: (w ++ r)).map Lexer.ch)[pre.length + 1 + w.length]? = r.head?.map Lexer.ch := by
    rw [List.getElem?_map, List.getElem?_append_right (by omega)]
    rw [show pre.length + 1 + w.length - pre.length = w.length + 1 by omega, List.getElem?_cons_succ, List.getElem?_append_right (by omega)]
    simp [List.head?_eq_getElem?]
  have hne : ∀ x : UInt8, (∀ d, r.head? = some d → Lexer.ch d ≠ x) → ((pre ++ c :: (w ++ r)).map Lexer.ch)[pre.length + 1 + w.length]? ≠ some x := by
    intro x hx e
    rw [hstop, Option.map_eq_some_iff] at e
    obtain ⟨d, hd, e⟩ := e
    exact hx d hd e
  simp only [Option.bind_eq_bind, Option.bind_some]
  rw [if_neg (hne _ fun d hd => (ok_byte (hr d hd).1).2.1), if_neg (hne _ fun d hd => (ok_byte (hr d hd).1).2.2.1)]
  simp; omega

/-- the parts of a text do not share a token -/
structure Joins (a b : List Char) : Prop where
  head : ∀ d, b.head? = some d → okChar d = true
  calm : ∀ c d, a.getLast? = some c → b.head? = some d → calm c d = true
  run : ∀ x w, a = x ++ w → w ≠ [] → (∀ c ∈ w, isWordChar c = true) → ∀ d, b.head? = some d →
    isWordChar d = false ∨ (∀ c ∈ w, isDigitChar c = true) ∧ isDigitChar d = false

theorem Joins.tail {a a' b : List Char} (h : Joins (a ++ a') b) (h0 : a' ≠ []) : Joins a' b := by
  refine ⟨h.head, fun c d hc hd => h.calm c d ?_ hd, ?_⟩
  · rw [getLast?_append_right h0]; exact hc
  · rintro x w rfl hw hwd d hd
    exact h.run (a ++ x) w (by simp) hw hwd d hd

theorem Joins.nil (b : List Char) (h : ∀ d, b.head? = some d → okChar d = true) : Joins [] b := by
  refine ⟨h, nofun, ?_⟩
  intro x w e hw
  exact absurd (List.append_eq_nil_iff.1 e.symm).2 hw

theorem head_split {p : Char → Bool} {r b : List Char} : ∃ w r', r = w ++ r' ∧ (∀ d ∈ w, p d = true) ∧ ∀ d, r'.head? = some d → p d = false := by
  refine ⟨r.takeWhile p, r.dropWhile p, (List.takeWhile_append_dropWhile).symm, fun d hd => mem_takeWhile' hd, ?_⟩
  intro d hd
  have := List.head?_dropWhile_not p r
  rw [hd] at this
  simpa using this

theorem Calm.tail {a b : List Char} (h : Calm (a ++ b)) : Calm b := by
  induction a with
  | nil => exact h
  | cons x xs ih =>
    refine ih ?_
    cases hx : xs ++ b with
    | nil => trivial
    | cons y ys => rw [List.cons_append, hx] at h; exact h.2

/-- the tokens of a part of a text -/
theorem Lexes.part : ∀ (n : Nat) {P a b : List Char} {ts : List Tok}, a.length ≤ n → (∀ c ∈ P, c.toNat < 128) → (∀ c ∈ a, okChar c = true) → Calm a →
    Joins a b → Lexes (P ++ a) b ts →
    ∃ ta, Lexes P (a ++ b) (ta ++ ts) ∧ flat ta = a ∧ (∀ t ∈ ta, OkTok t) ∧ Chained P.getLast? ta := by
  intro n
  induction n with
  | zero =>
    intro P a b ts hn _ _ _ _ h
    have : a = [] := List.length_eq_zero_iff.1 (by omega)
    subst this
    exact ⟨[], by simpa using h, rfl, nofun, trivial⟩
  | succ n ih =>
    intro P a b ts hn hP hok hcalm hj h
    cases a with
    | nil => exact ⟨[], by simpa using h, rfl, nofun, trivial⟩
    | cons c r =>
      -- the first token
      have key : ∃ w r' k, c :: r = w ++ r' ∧ w ≠ [] ∧ (k = Digits → ∀ d ∈ w, isDigitChar d = true) ∧
          (((k = Word ∨ k = Digits) ∧ ∀ d ∈ w, isWordChar d = true) ∨ ∃ d, w = [d] ∧ otherKind d = some k) ∧
          Lexer.nextToken ((P ++ (w ++ (r' ++ b))).map Lexer.ch) [] P.length =
            some (some ⟨k, P.length, P.length + w.length, P.length + w.length⟩, P.length + w.length) := by
        have hcok := hok c (by simp)
        by_cases hcw : isWordChar c = true
        · by_cases hcd : isDigitChar c = true
          · obtain ⟨w, r', e, hw, hr'⟩ := head_split (p := isDigitChar) (r := r) (b := b)
            subst e
            have hall : ∀ d ∈ c :: w, isDigitChar d = true := by
              intro d hd
              rcases List.mem_cons.1 hd with rfl | hd
              · exact hcd
              · exact hw d hd
            have hdw : ∀ d ∈ c :: w, isWordChar d = true := by
              intro d hd
              have := hall d hd
              simp only [isDigitChar, isWordChar, Bool.or_eq_true, Bool.and_eq_true, decide_eq_true_eq] at this ⊢
              exact .inr this
            refine ⟨c :: w, r', Digits, rfl, by simp, fun _ => hall, .inl ⟨.inr rfl, hdw⟩, next_digits (by simp) hall ?_⟩
            intro d hd
            cases r' with
            | cons e r' =>
              simp only [List.cons_append, List.head?_cons, Option.some.injEq] at hd
              subst hd
              exact ⟨hok _ (by simp), hr' _ rfl⟩
            | nil =>
              have hd : b.head? = some d := hd
              refine ⟨hj.head d hd, ?_⟩
              rcases hj.run [] (c :: w) (by simp) (by simp) hdw d hd with h | h
              · cases hx : isDigitChar d with
                | false => rfl
                | true =>
                  simp only [isDigitChar, Bool.and_eq_true, decide_eq_true_eq] at hx
                  simp only [isWordChar, Bool.or_eq_false_iff, Bool.and_eq_false_iff, decide_eq_false_iff_not] at h
                  omega
              · exact h.2
          · obtain ⟨w, r', e, hw, hr'⟩ := head_split (p := isWordChar) (r := r) (b := b)
            subst e
            have hall : ∀ d ∈ c :: w, isWordChar d = true := by
              intro d hd
              rcases List.mem_cons.1 hd with rfl | hd
              · exact hcw
              · exact hw d hd
            have hcd : isDigitChar c = false := by simpa using hcd
            refine ⟨c :: w, r', Word, rfl, by simp, nofun, .inl ⟨.inl rfl, hall⟩, next_letters hcw hcd hw ?_⟩
            intro d hd
            cases r' with
            | cons e r' =>
              simp only [List.cons_append, List.head?_cons, Option.some.injEq] at hd
              subst hd
              exact ⟨hok _ (by simp), hr' _ rfl⟩
            | nil =>
              have hd : b.head? = some d := hd
              refine ⟨hj.head d hd, ?_⟩
              rcases hj.run [] (c :: w) (by simp) (by simp) hall d hd with h | h
              · exact h
              · have := h.1 c (by simp)
                rw [hcd] at this; cases this
        · have hs : (otherKind c).isSome = true := by
            simp only [okChar, Bool.or_eq_true] at hcok
            exact hcok.resolve_left hcw
          obtain ⟨k, hk⟩ := Option.isSome_iff_exists.1 hs
          refine ⟨[c], r, k, rfl, by simp, ?_, .inr ⟨c, rfl, hk⟩, ?_⟩
          · rintro rfl; have := otherKind_cases hk; simp at this
          · have := next_other (pre := P) (r := r ++ b) hk ?_ ?_
            · simpa using this
            · intro d hd
              cases r with
              | nil => exact hj.head d hd
              | cons e r => simp only [List.cons_append, List.head?_cons, Option.some.injEq] at hd; subst hd; exact hok _ (by simp)
            · intro d hd
              cases r with
              | nil => exact hj.calm c d rfl hd
              | cons e r => simp only [List.cons_append, List.head?_cons, Option.some.injEq] at hd; subst hd; exact hcalm.1
      obtain ⟨w, r', k, e, h0, hdig, hkind, hnext⟩ := key
      rw [e] at hn hok hcalm hj h ⊢
      have hwl := List.length_pos_iff.2 h0
      have hwa : ∀ c ∈ w, c.toNat < 128 := fun d hd => ok_ascii (hok d (by simp [hd]))
      have hj' : Joins r' b := by
        by_cases hr : r' = []
        · subst hr; exact Joins.nil b hj.head
        · exact hj.tail hr
      obtain ⟨ta, g1, g2, g3, g4⟩ := ih (P := P ++ w) (a := r') (b := b) (ts := ts) (by rw [List.length_append] at hn; omega) (by
        intro d hd
        rcases List.mem_append.1 hd with hd | hd
        · exact hP d hd
        · exact hwa d hd) (fun d hd => hok d (by simp [hd])) hcalm.tail hj' (by simpa using h)
      rw [getLast?_append_right h0] at g4
      refine ⟨{ kind := k, lexeme := w, before := P.getLast?, loc := P.length } :: ta, ?_, by rw [flat_cons, g2], ?_, rfl, g4⟩
      · rw [List.append_assoc]
        exact Lexes.step hP hwa h0 hnext g1
      · intro t ht
        rcases List.mem_cons.1 ht with rfl | ht
        · refine ⟨rfl, ?_, hdig⟩
          rcases hkind with ⟨h5, h6⟩ | ⟨d, h5, h6⟩
          · exact .inl ⟨h5, h0, h6⟩
          · exact .inr ⟨d, h5, h6⟩
        · exact g3 t ht

/-- what may be an address -/
theorem next_email {pre w dom r : List Char} {c : Char} (hc : isWordChar c = true) (hcd : isDigitChar c = false) (hw : ∀ d ∈ w, isWordChar d = true)
    (hdom : ∀ d ∈ dom, Lexer.domainChar (Lexer.ch d) = true) (hlen : 3 < dom.length) (hdot : '.' ∈ dom)
    (hr : ∀ d, r.head? = some d → Lexer.domainChar (Lexer.ch d) = false ∧ Lexer.ch d ≠ Lexer.ch '@') :
    Lexer.nextToken ((pre ++ (c :: (w ++ '@' :: dom) ++ r)).map Lexer.ch) [] pre.length =
      some (some ⟨MaybeEmail, pre.length, pre.length + (c :: (w ++ '@' :: dom)).length, pre.length + (c :: (w ++ '@' :: dom)).length⟩,
        pre.length + (c :: (w ++ '@' :: dom)).length) := by
  obtain ⟨b1, b2, b3, b4, b5, b6, b7, b8, b9, b10, b11, b12, b13, b14⟩ := word_byte hc
  have hd : Lexer.isDigit (Lexer.ch c) = false := by
    cases h : Lexer.isDigit (Lexer.ch c) with
    | false => rfl
    | true =>
      have := digit_byte (ok_ascii (by simp [okChar, hc])) h
      rw [hcd] at this; cases this
  have hsrc : pre ++ (c :: (w ++ '@' :: dom) ++ r) = pre ++ c :: (w ++ '@' :: (dom ++ r)) := by simp
  rw [hsrc]
  have hdelim : Lexer.atDelimiterLine ((pre ++ c :: (w ++ '@' :: (dom ++ r))).map Lexer.ch) pre.length = none := no_delimiter (get_at c) (.inl b2)
  rw [Option.isNone_iff_eq_none] at b1
  unfold Lexer.nextToken
  rw [hdelim, get_at]
  dsimp only
  rw [b1]
  simp only [Lexer.otherArm, b3, b4, b5, b6, b7, b8, b9, b10, b11, b12, b13, b14, hd, false_and, or_self, if_false, Bool.false_eq_true]
  unfold Lexer.word
  have hscan := scan_exact (f := fun b => !Lexer.wordBoundary true b) (pre := pre ++ [c]) (w := w) (r := '@' :: (dom ++ r))
    (fun d hd => by simp [(ok_byte (c := d) (by simp [okChar, hw d hd])).1, hw d hd])
    (fun d hd => by simp only [List.head?_cons, Option.some.injEq] at hd; subst hd; decide)
  simp only [List.append_assoc, List.singleton_append, List.length_append, List.length_singleton] at hscan
  dsimp only
  rw [hscan]
  have hsl : Lexer.slice ((pre ++ c :: (w ++ '@' :: (dom ++ r))).map Lexer.ch) (pre.length + 1 - 1) (pre.length + 1 + w.length) = some _ :=
    if_pos ⟨by omega, by simp; omega⟩
  rw [hsl]
  have hstop : ((pre ++ c :: (w ++ '@' :: (dom ++ r))).map Lexer.ch)[pre.length + 1 + w.length]? = some (Lexer.ch '@') := by
    have : pre ++ c :: (w ++ '@' :: (dom ++ r)) = (pre ++ c :: w) ++ '@' :: (dom ++ r) := by simp
    rw [this, show pre.length + 1 + w.length = (pre ++ c :: w).length by simp; omega]
    exact get_at '@'
  simp only [Option.bind_eq_bind, Option.bind_some, hstop]
  rw [if_neg (by decide), if_pos trivial]
  -- the domain
  unfold Lexer.wordEmail
  have hscan2 := scan_exact (f := Lexer.domainChar) (pre := pre ++ c :: (w ++ ['@'])) (w := dom) (r := r) hdom (fun d hd => (hr d hd).1)
  have e1 : (pre ++ c :: (w ++ ['@'])).length = pre.length + 1 + w.length + 1 := by simp; omega
  rw [e1] at hscan2
  have e2 : pre ++ c :: (w ++ ['@']) ++ (dom ++ r) = pre ++ c :: (w ++ '@' :: (dom ++ r)) := by simp
  rw [e2] at hscan2
  dsimp only
  rw [hscan2]
  have hsl2 : Lexer.slice ((pre ++ c :: (w ++ '@' :: (dom ++ r))).map Lexer.ch) (pre.length + 1 + w.length + 1) (pre.length + 1 + w.length + 1 + dom.length) =
      some (dom.map Lexer.ch) := by
    rw [Lexer.slice, if_pos ⟨by omega, by simp; omega⟩, ← e2, ← List.map_drop, ← e1, List.drop_left, Nat.add_sub_cancel_left, ← List.map_take, List.take_left]
  rw [hsl2]
  have hend : ((pre ++ c :: (w ++ '@' :: (dom ++ r))).map Lexer.ch)[pre.length + 1 + w.length + 1 + dom.length]? = r.head?.map Lexer.ch := by
    have : pre ++ c :: (w ++ '@' :: (dom ++ r)) = (pre ++ c :: (w ++ '@' :: dom)) ++ r := by simp
    rw [this, List.getElem?_map, List.getElem?_append_right (by simp; omega)]
    rw [show pre.length + 1 + w.length + 1 + dom.length - (pre ++ c :: (w ++ '@' :: dom)).length = 0 by simp; omega, List.head?_eq_getElem?]
  simp only [Option.bind_eq_bind, Option.bind_some]
  rw [if_pos]
  · simp; omega
  · rw [hend]
    have h1 : (dom.map Lexer.ch).contains (Lexer.ch '.') = true := by
      rw [List.contains_iff_mem]; exact List.mem_map.2 ⟨'.', hdot, rfl⟩
    have h2 : (r.head?.map Lexer.ch != some (Lexer.ch '@')) = true := by
      cases hh : r.head? with
      | none => rfl
      | some d => simpa [bne_iff_ne] using (hr d hh).2
    rw [h1, h2]
    simpa using hlen

end Verif.Inlines

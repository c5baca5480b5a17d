import Verif.Model.Lexer
namespace Verif.Lexer

/-! ### `scan` -/

theorem scan_ge (f : UInt8 → Bool) (src : List UInt8) (pos : Nat) : pos ≤ scan f src pos := by
  unfold scan; omega

theorem scan_le (f : UInt8 → Bool) (src : List UInt8) (pos : Nat) (h : pos ≤ src.length) :
    scan f src pos ≤ src.length := by
  unfold scan
  have := (List.takeWhile_sublist f (l := src.drop pos)).length_le
  simp only [List.length_drop] at this
  omega

theorem takeWhile_stop (f : UInt8 → Bool) (l : List UInt8) (b : UInt8)
    (h : l[(l.takeWhile f).length]? = some b) : f b = false := by
  induction l with
  | nil => simp at h
  | cons a l ih =>
    by_cases ha : f a = true
    · simp only [List.takeWhile_cons, ha, if_true, List.length_cons, List.getElem?_cons_succ] at h
      exact ih h
    · simp only [List.takeWhile_cons, ha] at h
      simp at h
      subst h
      simpa using ha

theorem takeWhile_all (f : UInt8 → Bool) (l : List UInt8) (i : Nat) (h : i < (l.takeWhile f).length) :
    ∃ b, l[i]? = some b ∧ f b = true := by
  induction l generalizing i with
  | nil => simp at h
  | cons a l ih =>
    by_cases ha : f a = true
    · simp only [List.takeWhile_cons, ha, if_true, List.length_cons] at h
      cases i with
      | zero => exact ⟨a, by simp, ha⟩
      | succ i => simpa using ih i (by omega)
    · simp [ha] at h

theorem scan_stop (f : UInt8 → Bool) (src : List UInt8) (pos : Nat) (b : UInt8)
    (h : src[scan f src pos]? = some b) : f b = false := by
  unfold scan at h
  refine takeWhile_stop f (src.drop pos) b ?_
  rw [List.getElem?_drop]; exact h

theorem scan_all (f : UInt8 → Bool) (src : List UInt8) (pos i : Nat) (h1 : pos ≤ i)
    (h2 : i < scan f src pos) : ∃ b, src[i]? = some b ∧ f b = true := by
  unfold scan at h2
  obtain ⟨b, hb, hf⟩ := takeWhile_all f (src.drop pos) (i - pos) (by omega)
  rw [List.getElem?_drop] at hb
  exact ⟨b, by rw [← hb]; congr 1; omega, hf⟩

/-! ### the one-step invariant -/

/-- why a token may end at `e`: the end of the source, next to an ASCII byte, or after a complete two or three
byte character -/
def EndOk (src : List UInt8) (pos e : Nat) : Prop :=
  (∃ b, src[e - 1]? = some b ∧ b < 128) ∨ src[e]? = none ∨ (∃ b, src[e]? = some b ∧ b < 128) ∨
  (e = pos + 2 ∧ src[pos]? = some 0xC2) ∨
  (e = pos + 3 ∧ ∃ b, src[pos]? = some b ∧ 0xE0 ≤ b ∧ b < 0xF0)

/-- a step starting at `pos` is well formed -/
structure Good (src : List UInt8) (pos : Nat) (s : Step) : Prop where
  start : s.start = pos
  stop : s.stop = s.pos
  lt : pos < s.pos
  le : s.pos ≤ src.length
  endOk : EndOk src pos s.pos

theorem lt_length_of_getElem? {src : List UInt8} {i : Nat} {b : UInt8} (h : src[i]? = some b) :
    i < src.length := (List.getElem?_eq_some_iff.mp h).1

theorem EndOk.ascii_before {src : List UInt8} {pos e : Nat} {b : UInt8} (h : src[e - 1]? = some b)
    (hb : b < 128) : EndOk src pos e := Or.inl ⟨b, h, hb⟩

theorem EndOk.ascii_at {src : List UInt8} {pos e : Nat} {b : UInt8} (h : src[e]? = some b)
    (hb : b < 128) : EndOk src pos e := Or.inr (Or.inr (Or.inl ⟨b, h, hb⟩))

theorem single_good {src : List UInt8} {pos : Nat} {b : UInt8} (k : TokenKind) (h : src[pos]? = some b)
    (hb : b < 128) : Good src pos (single k (pos + 1)) where
  start := by simp [single]
  stop := rfl
  lt := by simp [single]
  le := by have := lt_length_of_getElem? h; simp only [single]; omega
  endOk := EndOk.ascii_before (b := b) (by simpa [single] using h) hb

theorem repeating_good {src : List UInt8} {pos : Nat} {b : UInt8} (k : TokenKind) (f : UInt8 → Bool)
    (h : src[pos]? = some b) (hb : b < 128) (hf : ∀ c, f c = true → c < 128) :
    Good src pos (repeating k f src (pos + 1)) where
  start := by simp [repeating]
  stop := rfl
  lt := by have := scan_ge f src (pos + 1); simp only [repeating]; omega
  le := scan_le _ _ _ (lt_length_of_getElem? h)
  endOk := by
    simp only [repeating]
    by_cases he : scan f src (pos + 1) = pos + 1
    · rw [he]; exact EndOk.ascii_before (b := b) (by simpa using h) hb
    · have := scan_ge f src (pos + 1)
      obtain ⟨c, hc, hfc⟩ := scan_all f src (pos + 1) (scan f src (pos + 1) - 1) (by omega) (by omega)
      exact EndOk.ascii_before hc (hf c hfc)

theorem isDigit_lt (b : UInt8) (h : isDigit b = true) : b < 128 := by
  simp only [isDigit, Bool.and_eq_true, decide_eq_true_eq] at h
  exact Nat.lt_of_le_of_lt h.2 (by decide)

theorem isAlnum_lt (b : UInt8) (h : isAlnum b = true) : b < 128 := by
  simp only [isAlnum, isAlpha, isDigit, Bool.and_eq_true, Bool.or_eq_true, decide_eq_true_eq] at h
  rcases h with (h | h) | h <;> exact Nat.lt_of_le_of_lt h.2 (by decide)

theorem domainChar_lt (b : UInt8) (h : domainChar b = true) : b < 128 := by
  simp only [domainChar, Bool.or_eq_true, beq_iff_eq] at h
  rcases h with ((h | rfl) | rfl) | rfl
  · exact isAlnum_lt b h
  all_goals decide

theorem isSpace_lt (b : UInt8) (h : isSpace b = true) : b < 128 := by
  simp only [isSpace, Bool.or_eq_true, beq_iff_eq] at h
  rcases h with ((rfl | rfl) | rfl) | rfl <;> decide

theorem mem_bs_lt {l : List UInt8} (hl : l.all (· < 128) = true) {b : UInt8} (h : l.contains b = true) :
    b < 128 := by
  have := List.all_eq_true.mp hl b (by simpa using h)
  simpa using this

theorem wordBoundary_lt (w : Bool) (b : UInt8) (h : wordBoundary w b = true) : b < 128 := by
  simp only [wordBoundary, Bool.or_eq_true, Bool.and_eq_true, beq_iff_eq] at h
  rcases h with ((((((⟨_, rfl⟩ | rfl) | rfl) | rfl) | rfl) | rfl) | rfl) | h
  all_goals first | decide | exact mem_bs_lt (by decide) h

theorem simpleTable_lt {b : UInt8} {x : Simple} (h : simpleTable.lookup b = some x) : b < 128 := by
  have key : ∀ (l : List (UInt8 × Simple)), l.all (fun p => p.1 < 128) = true → l.lookup b = some x → b < 128 := by
    intro l
    induction l with
    | nil => intro _ h; cases h
    | cons p l ih =>
      intro ha h
      simp only [List.all_cons, Bool.and_eq_true, decide_eq_true_eq] at ha
      obtain ⟨k, v⟩ := p
      simp only [List.lookup_cons] at h
      by_cases hk : b = k
      · subst hk; exact ha.1
      · rw [show (b == k) = false by simpa using hk] at h
        exact ih ha.2 h
  exact key simpleTable (by decide) h

/-! ### delimiter lines -/

theorem atDelimiterLine_good {src : List UInt8} {pos len : Nat} {c : UInt8}
    (h : atDelimiterLine src pos = some (len, c)) :
    Good src pos ⟨.DelimiterLine, pos, pos + len, pos + len⟩ ∧ src[pos]? ≠ none := by
  unfold atDelimiterLine at h
  cases hc : src[pos]? with
  | none => simp [hc] at h
  | some b =>
    refine ⟨?_, by simp⟩
    simp only [hc] at h
    split at h
    · cases h
    rename_i hset
    have hb : b < 128 := by
      simp only [Bool.or_eq_true, Bool.not_eq_true', not_or, Bool.not_eq_false] at hset
      exact mem_bs_lt (l := bs "_-*=.+/`") (by decide) hset.2
    have mk : ∀ (n : Nat) (d : UInt8), 0 < n → src[pos + n - 1]? = some d → d < 128 →
        Good src pos ⟨.DelimiterLine, pos, pos + n, pos + n⟩ := by
      intro n d hn hd hd'
      have := lt_length_of_getElem? hd
      exact ⟨rfl, rfl, by simp only; omega, by simp only; omega, EndOk.ascii_before hd hd'⟩
    split at h
    · rename_i h3
      cases h
      exact mk 3 _ (by omega) (by simpa using h3.2.2.1) (by decide)
    split at h
    · rename_i h3
      cases h
      exact mk 2 _ (by omega) (by simpa using h3.2.1) (by decide)
    split at h
    · rename_i h3
      cases h
      exact mk 4 _ (by omega) (by simpa using h3.2.2.2.1) hb
    split at h
    · rename_i h3
      have h5 := lt_length_of_getElem? h3.2.2.2.2
      have hge := scan_ge (· == ch '=') src (pos + 5)
      have hle := scan_le (· == ch '=') src (pos + 5) (by omega)
      split at h
      · cases h
        refine ⟨rfl, rfl, by simp only; omega, by simp only; omega, ?_⟩
        simp only
        rw [show pos + (scan (· == ch '=') src (pos + 5) - pos) = scan (· == ch '=') src (pos + 5) by omega]
        by_cases he : scan (· == ch '=') src (pos + 5) = pos + 5
        · rw [he]; exact EndOk.ascii_before (b := b) (by simpa using h3.2.2.2.2) hb
        · obtain ⟨d, hd, hfd⟩ := scan_all (· == ch '=') src (pos + 5)
            (scan (· == ch '=') src (pos + 5) - 1) (by omega) (by omega)
          refine EndOk.ascii_before hd ?_
          have : d = ch '=' := by simpa using hfd
          subst this; decide
      · cases h
    · cases h

/-! ### words -/

theorem slice_some {src : List UInt8} {i j : Nat} (h1 : i ≤ j) (h2 : j ≤ src.length) :
    slice src i j = some ((src.drop i).take (j - i)) := by simp [slice, h1, h2]

theorem word_stop_endOk (src : List UInt8) (pos p : Nat) (w : Bool) :
    EndOk src pos (scan (fun b => !wordBoundary w b) src p) := by
  cases hc : src[scan (fun b => !wordBoundary w b) src p]? with
  | none => exact Or.inr (Or.inl hc)
  | some b =>
    have := scan_stop _ _ _ _ hc
    exact EndOk.ascii_at hc (wordBoundary_lt w b (by simpa using this))

theorem suffix_byte {src lexeme suf : List UInt8} {start stop : Nat} {d : UInt8} {rest : List UInt8}
    (hlex : lexeme = (src.drop start).take (stop - start)) (hle : start ≤ stop) (hlen : stop ≤ src.length)
    (hsuf : suf.isSuffixOf lexeme = true) (hd : suf = d :: rest) (hne : suf ≠ lexeme) :
    start < stop - suf.length ∧ src[stop - suf.length]? = some d := by
  rw [List.isSuffixOf_iff_suffix] at hsuf
  obtain ⟨pre, hpre⟩ := hsuf
  have hl : lexeme.length = stop - start := by
    rw [hlex]; simp only [List.length_take, List.length_drop]; omega
  have hsl : pre.length + suf.length = stop - start := by
    rw [← hl, ← hpre, List.length_append]
  have hpos : 0 < pre.length := by
    cases pre with
    | nil => exact absurd (by simpa using hpre) hne
    | cons a l => simp
  refine ⟨by omega, ?_⟩
  have e1 : lexeme[pre.length]? = some d := by
    rw [← hpre, hd, List.getElem?_append_right (by omega)]; simp
  rw [hlex, List.getElem?_take_of_lt (by subst hd; simp at hsl; omega), List.getElem?_drop] at e1
  rw [show stop - suf.length = start + pre.length by omega]
  exact e1

theorem wordMacro_good {src : List UInt8} {plugins : List (List UInt8)} {pos stop : Nat} {lexeme : List UInt8}
    (hlex : lexeme = (src.drop pos).take (stop - pos)) (hlt : pos < stop) (hc : src[stop]? = some (ch ':'))
    (hend : EndOk src pos stop) : Good src pos (wordMacro src plugins pos stop lexeme) := by
  have hlen := lt_length_of_getElem? hc
  unfold wordMacro
  split
  · rename_i n hn
    unfold continuesUriScheme at hn
    have pk : ∀ n (l : List UInt8) d, 0 < n → peekBytes src stop n = some l → l[n-1]? = some d → d < 128 →
        Good src pos ⟨.UriScheme, pos, stop + n, stop + n⟩ := by
      intro n l d hn hp hl hd
      unfold peekBytes at hp
      split at hp
      · rename_i hle
        cases hp
        rw [List.getElem?_take_of_lt (by omega), List.getElem?_drop] at hl
        refine ⟨rfl, rfl, by simp only; omega, hle, EndOk.ascii_before (b := d) ?_ hd⟩
        rw [← hl]; simp only; congr 1; omega
      · cases hp
    split at hn
    · rename_i h
      cases hn
      simp only [Bool.and_eq_true, beq_iff_eq] at h
      exact pk 3 _ _ (by omega) h.2 rfl (by decide)
    · split at hn
      · rename_i h
        cases hn
        simp only [Bool.and_eq_true, beq_iff_eq] at h
        exact pk 4 _ _ (by omega) h.2 rfl (by decide)
      · cases hn
  · split
    · exact ⟨rfl, rfl, by simp only; omega, hlen, EndOk.ascii_before (b := ch ':') (by simpa using hc) (by decide)⟩
    · rename_i hmac
      have hnot : lexeme ≠ bs "footnote" ∧ lexeme ≠ bs "indexterm" := by
        constructor <;> (rintro rfl; apply hmac; unfold isMacroName; rw [Bool.or_eq_true]; left; decide)
      split
      · rename_i hs
        obtain ⟨h1, h2⟩ := suffix_byte (d := ch 'f') (rest := bs "ootnote") hlex (by omega) (by omega) hs
          (by decide) (Ne.symm hnot.1)
        exact ⟨rfl, rfl, h1, by simp only; omega, EndOk.ascii_at h2 (by decide)⟩
      · split
        · rename_i hs
          obtain ⟨h1, h2⟩ := suffix_byte (d := ch 'i') (rest := bs "ndexterm") hlex (by omega) (by omega) hs
            (by decide) (Ne.symm hnot.2)
          exact ⟨rfl, rfl, h1, by simp only; omega, EndOk.ascii_at h2 (by decide)⟩
        · exact ⟨rfl, rfl, hlt, by simp only; omega, hend⟩

theorem wordEmail_good {src : List UInt8} {pos stop : Nat} (hlt : pos < stop)
    (hc : src[stop]? = some (ch '@')) : ∃ s, wordEmail src pos stop = some s ∧ Good src pos s := by
  have hlen := lt_length_of_getElem? hc
  have hge := scan_ge domainChar src (stop + 1)
  have hle := scan_le domainChar src (stop + 1) hlen
  have hback : scan domainChar src (stop + 1) - (scan domainChar src (stop + 1) - (stop + 1)) = stop + 1 := by
    omega
  have hdl : ((src.drop (stop + 1)).take (scan domainChar src (stop + 1) - (stop + 1))).length
      = scan domainChar src (stop + 1) - (stop + 1) := by
    simp only [List.length_take, List.length_drop]; omega
  unfold wordEmail
  simp only
  rw [slice_some hge hle]
  simp only [Option.bind_eq_bind, Option.bind_some, Option.pure_def]
  split
  · rename_i h
    refine ⟨_, rfl, rfl, rfl, by simp only; omega, hle, ?_⟩
    simp only [Bool.and_eq_true, decide_eq_true_eq] at h
    rw [hdl] at h
    obtain ⟨b, hb, hf⟩ := scan_all domainChar src (stop + 1) (scan domainChar src (stop + 1) - 1)
      (by omega) (by omega)
    exact EndOk.ascii_before hb (domainChar_lt b hf)
  · rw [hdl, hback]
    have := scan_ge (fun b => !wordBoundary false b) src (stop + 1)
    exact ⟨_, rfl, rfl, rfl, by simp only; omega, scan_le _ _ _ hlen, word_stop_endOk _ _ _ _⟩

theorem peekTerm_some {src : List UInt8} {pos : Nat} (h : pos < src.length) :
    ∃ b, peekTermDelimiter src pos = some b := by
  unfold peekTermDelimiter sliceFrom
  rw [if_pos (by omega)]
  simp only [Option.bind_eq_bind, Option.bind_some, Option.pure_def]
  split <;> exact ⟨_, rfl⟩

theorem word_good {src : List UInt8} {plugins : List (List UInt8)} {pos : Nat} {b : UInt8}
    (h : src[pos]? = some b) : ∃ s, word src plugins (pos + 1) = some s ∧ Good src pos s := by
  have hlen := lt_length_of_getElem? h
  unfold word
  have hge := scan_ge (fun b => !wordBoundary true b) src (pos + 1)
  have hle := scan_le (fun b => !wordBoundary true b) src (pos + 1) hlen
  have hend : EndOk src pos (scan (fun b => !wordBoundary true b) src (pos + 1)) := word_stop_endOk _ _ _ _
  generalize scan (fun b => !wordBoundary true b) src (pos + 1) = stop at *
  have plain : Good src pos ⟨.Word, pos, stop, stop⟩ := ⟨rfl, rfl, hge, hle, hend⟩
  simp only [Nat.add_sub_cancel]
  rw [slice_some (by omega) hle]
  simp only [Option.bind_eq_bind, Option.bind_some, Option.pure_def]
  split
  · rename_i hc
    split
    · rename_i hd
      have h2 : stop + 2 < src.length := by omega
      rw [List.getElem?_eq_getElem h2]
      simp only [Option.bind_some]
      split
      · exact ⟨_, rfl, plain⟩
      · exact ⟨_, rfl, rfl, rfl, by simp only; omega, by simp only; omega,
          EndOk.ascii_before (b := ch ':') (by simpa using hd.1) (by decide)⟩
    · obtain ⟨t, ht⟩ := peekTerm_some (src := src) (pos := stop) (lt_length_of_getElem? hc)
      rw [ht]
      simp only [Option.bind_some]
      split
      · exact ⟨_, rfl, plain⟩
      · exact ⟨_, rfl, wordMacro_good rfl hge hc hend⟩
  · split
    · rename_i hc
      exact wordEmail_good hge hc
    · exact ⟨_, rfl, plain⟩

/-! ### the other arms -/

theorem sliceFrom_get {src : List UInt8} {i : Nat} (h : i ≤ src.length) :
    sliceFrom src i = some (src.drop i) := by simp [sliceFrom, h]

theorem maybeTermDelimiter_good {src : List UInt8} {pos : Nat} {c : UInt8} (ls : Bool)
    (h : src[pos]? = some c) (hc : c < 128) :
    ∃ s, maybeTermDelimiter src (pos + 1) c ls = some s ∧ Good src pos s := by
  have sg := fun k => single_good k h hc
  unfold maybeTermDelimiter
  simp only [Option.bind_eq_bind, Option.pure_def]
  split
  · exact ⟨_, rfl, sg _⟩
  · rename_i hh
    have h1 : src[pos + 1]? = some c := by
      rcases Decidable.em (src[pos + 1]? = some c) with e | e
      · exact e
      · exact absurd (Or.inr e) hh
    have hl := lt_length_of_getElem? h1
    rw [sliceFrom_get (by omega)]
    simp only [Option.bind_some]
    split
    · refine ⟨_, rfl, by simp only; omega, rfl, by simp only; omega, by simp only; omega, ?_⟩
      exact EndOk.ascii_before (b := c) (by simpa using h1) hc
    · split
      · rename_i hcc
        obtain ⟨rfl, h2⟩ := hcc
        rw [List.getElem?_drop] at h2
        have hl2 := lt_length_of_getElem? h2
        by_cases h3 : (src.drop (pos + 1 + 1))[1]? = some (ch ':')
        · simp only [h3, if_true]
          rw [List.getElem?_drop] at h3
          have hl3 := lt_length_of_getElem? h3
          split
          · refine ⟨_, rfl, by simp only; omega, rfl, by simp only; omega, by simp only; omega, ?_⟩
            exact EndOk.ascii_before (b := ch ':') (by simpa using h3) (by decide)
          · exact ⟨_, rfl, sg _⟩
        · simp only [h3, if_false]
          split
          · refine ⟨_, rfl, by simp only; omega, rfl, by simp only; omega, by simp only; omega, ?_⟩
            exact EndOk.ascii_before (b := ch ':') (by simpa using h2) (by decide)
          · exact ⟨_, rfl, sg _⟩
      · exact ⟨_, rfl, sg _⟩

theorem attrRefLen_spec (l : List UInt8) (n m : Nat) (h : attrRefLen n l = some m) :
    n ≤ m ∧ l[m - n]? = some (ch '}') := by
  induction l generalizing n with
  | nil => cases h
  | cons c l ih =>
    unfold attrRefLen at h
    split at h
    · rename_i hc
      split at h
      · cases h
      · cases h; exact ⟨by omega, by simp [hc]⟩
    · have step : attrRefLen (n + 1) l = some m → n ≤ m ∧ (c :: l)[m - n]? = some (ch '}') := by
        intro h
        have := ih (n + 1) h
        refine ⟨by omega, ?_⟩
        rw [show m - n = (m - (n + 1)) + 1 by omega, List.getElem?_cons_succ]
        exact this.2
      split at h
      · exact step h
      · split at h
        · exact step h
        · cases h

theorem maybeAttrRef_good {src : List UInt8} {pos : Nat} {c : UInt8}
    (h : src[pos]? = some c) (hc : c < 128) : ∃ s, maybeAttrRef src (pos + 1) = some s ∧ Good src pos s := by
  have sg := fun k => single_good k h hc
  have hl := lt_length_of_getElem? h
  unfold maybeAttrRef
  simp only [Option.bind_eq_bind, Option.pure_def]
  split
  · exact ⟨_, rfl, sg _⟩
  · rw [sliceFrom_get (by omega)]
    simp only [Option.bind_some]
    split
    · rename_i len hlen
      obtain ⟨_, h2⟩ := attrRefLen_spec _ _ _ hlen
      rw [List.getElem?_drop] at h2
      simp only [Nat.sub_zero] at h2
      have hl2 := lt_length_of_getElem? h2
      refine ⟨_, rfl, by simp only; omega, rfl, by simp only; omega, by simp only; omega, ?_⟩
      exact EndOk.ascii_before (b := ch '}') (by simpa using h2) (by decide)
    · exact ⟨_, rfl, sg _⟩

theorem xmlCallout_good {src : List UInt8} {pos : Nat} {c : UInt8}
    (h : src[pos]? = some c) (hc : c < 128) :
    Good src pos (xmlCallout (pos + 1) ((src.drop (pos + 1 + 1)).drop 3)) := by
  have sg := fun k => single_good k h hc
  unfold xmlCallout
  simp only
  split
  · split
    · rename_i h2
      obtain ⟨_, h2⟩ := h2
      rw [List.drop_drop, List.getElem?_drop] at h2
      rw [List.drop_drop]
      have hl2 := lt_length_of_getElem? h2
      refine ⟨by simp only; omega, rfl, by simp only; omega, by simp only; omega, ?_⟩
      refine EndOk.ascii_before (b := ch '>') ?_ (by decide)
      rw [← h2]; simp only; congr 1; omega
    · exact sg _
  · exact sg _

theorem maybeCalloutNumber_good {src : List UInt8} {pos : Nat} {c : UInt8}
    (h : src[pos]? = some c) (hc : c < 128) :
    ∃ s, maybeCalloutNumber src (pos + 1) = some s ∧ Good src pos s := by
  have sg := fun k => single_good k h hc
  unfold maybeCalloutNumber
  simp only [Option.bind_eq_bind, Option.pure_def]
  split
  · exact ⟨_, rfl, sg _⟩
  · rename_i d hd
    have hl := lt_length_of_getElem? hd
    split
    · have hge := scan_ge isDigit src (pos + 1 + 1)
      split
      · rename_i he
        have hl2 := lt_length_of_getElem? he
        refine ⟨_, rfl, by simp only; omega, rfl, by simp only; omega, by simp only; omega, ?_⟩
        exact EndOk.ascii_before (b := ch '>') (by simpa using he) (by decide)
      · rw [show scan isDigit src (pos + 1 + 1) - (scan isDigit src (pos + 1 + 1) - (pos + 1 - 1) - 1) = pos + 1 by
          omega]
        exact ⟨_, rfl, sg _⟩
    · split
      · split
        · rename_i he
          have hl2 := lt_length_of_getElem? he
          refine ⟨_, rfl, by simp only; omega, rfl, by simp only; omega, by simp only; omega, ?_⟩
          exact EndOk.ascii_before (b := ch '>') (by simpa using he) (by decide)
        · rw [show pos + 1 + 1 - (pos + 1 + 1 - (pos + 1 - 1) - 1) = pos + 1 by omega]
          exact ⟨_, rfl, sg _⟩
      · split
        · rw [sliceFrom_get (by omega)]
          simp only [Option.bind_some]
          split
          · split
            · exact ⟨_, rfl, sg _⟩
            · rename_i d2 hd2
              split
              · split
                · rename_i h6
                  have h6 := h6.2.2
                  rw [List.getElem?_drop] at h6
                  have hl2 := lt_length_of_getElem? h6
                  refine ⟨_, rfl, by simp only; omega, rfl, by simp only; omega, by simp only; omega, ?_⟩
                  exact EndOk.ascii_before (b := ch '>') (by simpa using h6) (by decide)
                · exact ⟨_, rfl, sg _⟩
              · split
                · exact ⟨_, rfl, xmlCallout_good h hc⟩
                · exact ⟨_, rfl, sg _⟩
          · exact ⟨_, rfl, sg _⟩
        · exact ⟨_, rfl, sg _⟩

theorem finishEntity_good {src : List UInt8} {pos : Nat} {c : UInt8} (n : Nat) (f : UInt8 → Bool)
    (h : src[pos]? = some c) (hc : c < 128) : Good src pos (finishEntity src (pos + 1) n f) := by
  have sg := fun k => single_good k h hc
  unfold finishEntity
  simp only
  split
  · rename_i he
    split
    · exact sg _
    · have hl := lt_length_of_getElem? he.2
      refine ⟨by simp only; omega, rfl, by simp only; omega, by simp only; omega, ?_⟩
      exact EndOk.ascii_before (b := ch ';') (by simpa using he.2) (by decide)
  · exact sg _

theorem maybeEntity_good {src : List UInt8} {pos : Nat} {c : UInt8}
    (h : src[pos]? = some c) (hc : c < 128) : Good src pos (maybeEntity src (pos + 1)) := by
  unfold maybeEntity
  split
  · exact finishEntity_good _ _ h hc
  · split
    · exact finishEntity_good _ _ h hc
    · split
      · exact finishEntity_good _ _ h hc
      · exact single_good _ h hc

theorem otherArm_good {src : List UInt8} {plugins : List (List UInt8)} {pos : Nat} {b : UInt8} (ls : Bool)
    (hb : src[pos]? = some b) : ∃ s, otherArm src plugins (pos + 1) b ls = some s ∧ Good src pos s := by
  unfold otherArm
  by_cases hs : isSpace b = true
  · rw [if_pos hs]
    exact ⟨_, rfl, repeating_good _ _ hb (isSpace_lt b hs) isSpace_lt⟩
  rw [if_neg hs]; clear hs
  by_cases hs : b = ch '&'
  · rw [if_pos hs]
    exact ⟨_, rfl, maybeEntity_good hb (by rw [hs]; decide)⟩
  rw [if_neg hs]; clear hs
  by_cases hs : b = ch '<'
  · rw [if_pos hs]
    exact maybeCalloutNumber_good hb (by rw [hs]; decide)
  rw [if_neg hs]; clear hs
  by_cases hs : b = ch '{'
  · rw [if_pos hs]
    exact maybeAttrRef_good hb (by rw [hs]; decide)
  rw [if_neg hs]; clear hs
  by_cases hs : b = 13 ∧ src[pos + 1]? = some 10
  · rw [if_pos hs]
    have hl := lt_length_of_getElem? hs.2
    refine ⟨_, rfl, by simp only [codepoint]; omega, rfl, by simp only [codepoint]; omega,
      by simp only [codepoint]; omega, ?_⟩
    exact EndOk.ascii_before (b := 10) (by simpa [codepoint] using hs.2) (by decide)
  rw [if_neg hs]; clear hs
  by_cases hs : isDigit b = true
  · rw [if_pos hs]
    exact ⟨_, rfl, repeating_good _ _ hb (isDigit_lt b hs) isDigit_lt⟩
  rw [if_neg hs]; clear hs
  by_cases hs : b = ch ';' ∨ b = ch ':'
  · rw [if_pos hs]
    exact maybeTermDelimiter_good _ hb (by rcases hs with rfl | rfl <;> decide)
  rw [if_neg hs]; clear hs
  by_cases hs : b = 0xC2 ∧ src[pos + 1]? = some 0xA0
  · rw [if_pos hs]
    have hl := lt_length_of_getElem? hs.2
    refine ⟨_, rfl, by simp only [codepoint]; omega, rfl, by simp only [codepoint]; omega,
      by simp only [codepoint]; omega, ?_⟩
    exact Or.inr (Or.inr (Or.inr (Or.inl ⟨by simp only [codepoint], by rw [hb, hs.1]⟩)))
  rw [if_neg hs]; clear hs
  by_cases hs : b = 0xE3 ∨ b = 0xEF ∨ b = 0xE2
  · rw [if_pos hs]
    by_cases hp : punct3.contains (b :: (peekBytes src (pos + 1) 2).getD []) = true
    · rw [if_pos hp]
      have hlen2 : pos + 1 + 2 ≤ src.length := by
        unfold peekBytes at hp
        split at hp
        · assumption
        · simp [punct3] at hp
      refine ⟨_, rfl, by simp only [codepoint]; omega, rfl, by simp only [codepoint]; omega,
        by simp only [codepoint]; omega, ?_⟩
      exact Or.inr (Or.inr (Or.inr (Or.inr ⟨by simp only [codepoint], b, hb, by
        rcases hs with rfl | rfl | rfl <;> decide⟩)))
    · rw [if_neg hp]; exact word_good hb
  rw [if_neg hs]; clear hs
  by_cases hs : b = 0x1B ∧ peekBytes src (pos + 1) 4 = some (bs "ass:")
  · rw [if_pos hs]
    have hp := hs.2
    unfold peekBytes at hp
    split at hp
    · rename_i hlen4
      have h4 : src[pos + 1 + 3]? = some (ch ':') := by
        have : ((src.drop (pos + 1)).take 4)[3]? = some (ch ':') := by
          rw [Option.some.inj hp]; rfl
        rwa [List.getElem?_take_of_lt (by omega), List.getElem?_drop] at this
      refine ⟨_, rfl, by simp only [codepoint]; omega, rfl, by simp only [codepoint]; omega,
        by simp only [codepoint]; omega, ?_⟩
      exact EndOk.ascii_before (b := ch ':') (by simpa [codepoint] using h4) (by decide)
    · cases hp
  rw [if_neg hs]
  exact word_good hb

/-- One call of `next_token` before the end of the source returns a good step and moves to its end. -/
theorem nextToken_good {src : List UInt8} {plugins : List (List UInt8)} {pos : Nat} (hpos : pos < src.length) :
    ∃ s, nextToken src plugins pos = some (some s, s.pos) ∧ Good src pos s := by
  unfold nextToken
  simp only
  split
  · rename_i len c hd
    exact ⟨_, rfl, (atDelimiterLine_good hd).1⟩
  · split
    · rename_i hn
      simp at hn; omega
    · rename_i b hb
      split
      · rename_i k hk
        exact ⟨_, rfl, single_good _ hb (simpleTable_lt hk)⟩
      · rename_i k hk
        refine ⟨_, rfl, repeating_good _ _ hb (simpleTable_lt hk) ?_⟩
        intro c hc
        have : c = b := by simpa using hc
        subst this; exact simpleTable_lt hk
      · obtain ⟨s, hs, hg⟩ := otherArm_good (plugins := plugins) (atLineStart src pos) hb
        exact ⟨s, by rw [hs]; rfl, hg⟩

/-- At or after the end `next_token` returns `None`. -/
theorem nextToken_eof {src : List UInt8} {plugins : List (List UInt8)} {pos : Nat} (hpos : src.length ≤ pos) :
    nextToken src plugins pos = some (none, pos + 1) := by
  have hn : src[pos]? = none := by simp [hpos]
  have hd : atDelimiterLine src pos = none := by simp [atDelimiterLine, hn]
  unfold nextToken
  simp only
  split
  · rename_i h; rw [hd] at h; cases h
  · split
    · rfl
    · rename_i h; rw [hn] at h; cases h

end Verif.Lexer

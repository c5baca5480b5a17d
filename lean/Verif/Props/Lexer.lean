import Verif.Lemmas.Utf8
namespace Verif.Props
open Verif Verif.Lexer

/-- everything about a complete run from position `pos` -/
private theorem run_from (src : List UInt8) (plugins : List (List UInt8)) (offset : Nat) (fuel pos : Nat)
    (hpos : pos ≤ src.length) (hf : src.length - pos < fuel) :
    ∃ toks, lexFrom src plugins offset fuel pos = some (toks, true) ∧
      toks.flatMap Tok.lexeme = src.drop pos ∧
      Covers (pos + offset) (src.length + offset) toks ∧
      toks.length ≤ src.length - pos ∧
      (∀ t ∈ toks, strFromLoc src offset t.start t.stop = some t.lexeme) ∧
      (ValidUtf8 (src.drop pos) → ∀ t ∈ toks, ValidUtf8 t.lexeme) := by
  induction fuel generalizing pos with
  | zero => omega
  | succ fuel ih =>
    unfold lexFrom
    by_cases hp : pos < src.length
    · obtain ⟨s, hs, hg⟩ := nextToken_good (plugins := plugins) hp
      have h1 := hg.start; have h2 := hg.stop; have h3 := hg.lt; have h4 := hg.le
      obtain ⟨toks, e1, e2, e3, e4, e5, e6⟩ := ih s.pos hg.le (by omega)
      have hsl : slice src pos s.pos = some ((src.drop pos).take (s.pos - pos)) :=
        slice_some (by omega) hg.le
      rw [hs]
      simp only [Option.bind_eq_bind, Option.bind_some, e1, Option.pure_def, h1, h2]
      rw [if_neg (by omega), hsl]
      refine ⟨_, rfl, ?_, ?_, ?_, ?_, ?_⟩
      · simp only [List.flatMap_cons, e2]
        conv => rhs; rw [← List.take_append_drop (s.pos - pos) (src.drop pos)]
        rw [List.drop_drop]; congr 2; omega
      · exact ⟨rfl, by simp only; omega, e3⟩
      · simp only [List.length_cons]; omega
      · intro t ht
        rcases List.mem_cons.mp ht with rfl | ht
        · unfold strFromLoc
          rw [if_pos (by simp only; omega)]
          simp only [Nat.add_sub_cancel]
          exact hsl
        · exact e5 t ht
      · intro hv t ht
        have := good_utf8 hg hv
        rcases List.mem_cons.mp ht with rfl | ht
        · exact this.1
        · exact e6 this.2 t ht
    · rw [nextToken_eof (by omega)]
      refine ⟨[], rfl, ?_, ?_, by simp, by simp, by simp⟩
      · simp; omega
      · show pos + offset = src.length + offset; omega

/-- C01: asking for tokens of any source until the end is reached gives, without panic, lexemes whose
concatenation is exactly the source. -/
theorem C01_lexing_lossless (src : List UInt8) (plugins : List (List UInt8)) (offset : Nat) :
    ∃ toks, lexFrom src plugins offset (src.length + 1) 0 = some (toks, true) ∧
      toks.flatMap Tok.lexeme = src := by
  obtain ⟨toks, h1, h2, _⟩ := run_from src plugins offset (src.length + 1) 0 (by omega) (by omega)
  exact ⟨toks, h1, by simpa using h2⟩

/-- C02: the tokens cover the source from beginning to end, each starting where the previous one ended and
none of them empty; there are at most as many as bytes, so lexing ends; and reading a token's location back
from the source gives its lexeme. -/
theorem C02_lexing_contiguous_and_terminates (src : List UInt8) (plugins : List (List UInt8)) (offset : Nat) :
    ∃ toks, lexFrom src plugins offset (src.length + 1) 0 = some (toks, true) ∧
      Covers offset (src.length + offset) toks ∧ toks.length ≤ src.length ∧
      ∀ t ∈ toks, strFromLoc src offset t.start t.stop = some t.lexeme := by
  obtain ⟨toks, h1, _, h3, h4, h5, _⟩ := run_from src plugins offset (src.length + 1) 0 (by omega) (by omega)
  exact ⟨toks, h1, by simpa using h3, h4, h5⟩

/-- C02 (single call): at every position before the end a call returns a token that starts there and moves
the lexer strictly forward, to the token's end; at the end it returns nothing. -/
theorem C02_single_call (src : List UInt8) (plugins : List (List UInt8)) (pos : Nat) :
    (pos < src.length → ∃ s, nextToken src plugins pos = some (some s, s.stop) ∧
      s.start = pos ∧ pos < s.stop ∧ s.stop ≤ src.length) ∧
    (src.length ≤ pos → ∃ p, nextToken src plugins pos = some (none, p)) := by
  constructor
  · intro h
    obtain ⟨s, hs, hg⟩ := nextToken_good (plugins := plugins) h
    exact ⟨s, by rw [hs, hg.stop], hg.start, by rw [hg.stop]; exact hg.lt, by rw [hg.stop]; exact hg.le⟩
  · intro h; exact ⟨_, nextToken_eof h⟩

/-- C03: in a valid UTF-8 source every token's lexeme is valid UTF-8 (so `from_utf8(..).unwrap()` never
panics). -/
theorem C03_lexemes_are_utf8 (src : List UInt8) (plugins : List (List UInt8)) (offset : Nat)
    (hsrc : ValidUtf8 src) (toks : List Tok)
    (h : lexFrom src plugins offset (src.length + 1) 0 = some (toks, true)) :
    ∀ t ∈ toks, ValidUtf8 t.lexeme := by
  obtain ⟨toks', h1, _, _, _, _, h6⟩ := run_from src plugins offset (src.length + 1) 0 (by omega) (by omega)
  rw [h] at h1
  cases h1
  exact h6 (by simpa using hsrc)

-- non-vacuity: an e-mail that is not one, a three byte space, an entity, a delimiter line
example : (lexFrom (bs "a@b c&amp;\n----\n" ++ [0xE3, 0x80, 0x80]) [] 0 20 0).map
    (fun r => (r.1.map Tok.kind, r.2)) =
    some ([.Word, .Whitespace, .Word, .Entity, .Newline, .DelimiterLine, .Newline, .Punctuation], true) := by
  decide +kernel
example : ValidUtf8 (bs "ab" ++ [0xE3, 0x80, 0x80]) := ⟨['a', 'b', '　'], by decide⟩

theorem foldl_lineStep (l : List UInt8) (a b : Nat) (h : 10 ∉ l) :
    l.foldl lineStep (a, b) = (a, b + l.length) := by
  induction l generalizing b with
  | nil => simp
  | cons x l ih =>
    have hx : x ≠ 10 := fun e => h (by simp [e])
    rw [List.foldl_cons, show lineStep (a, b) x = (a, b + 1) by simp [lineStep, hx],
      ih _ (fun hm => h (by simp [hm]))]
    simp only [List.length_cons]; congr 1; omega

theorem foldl_lineStep_count (l : List UInt8) (a b : Nat) :
    (l.foldl lineStep (a, b)).1 = a + l.count 10 := by
  induction l generalizing a b with
  | nil => simp
  | cons x l ih =>
    rw [List.foldl_cons]
    by_cases hx : x = 10
    · subst hx
      rw [show lineStep (a, b) 10 = (a + 1, 0) by simp [lineStep], ih, List.count_cons_self]; omega
    · rw [show lineStep (a, b) x = (a, b + 1) by simp [lineStep, hx], ih, List.count_cons_of_ne hx]

theorem foldl_lineStep_col (l : List UInt8) (a b : Nat) (h : l.getLast? = some 10) :
    (l.foldl lineStep (a, b)).2 = 0 := by
  obtain ⟨l', rfl⟩ := List.getLast?_eq_some_iff.mp h
  simp [lineStep]

theorem lineStartOf_spec (before line : List UInt8) (after : List UInt8) (c : Nat)
    (hb : before = [] ∨ before.getLast? = some 10) (hl : 10 ∉ line) (hc : c ≤ line.length) :
    lineStartOf (before ++ line ++ after) (before.length + c) = before.length := by
  induction c with
  | zero =>
    rcases hb with rfl | hb
    · rfl
    · obtain ⟨l', rfl⟩ := List.getLast?_eq_some_iff.mp hb
      simp [lineStartOf]
  | succ c ih =>
    rw [← Nat.add_assoc, lineStartOf]
    have : (before ++ line ++ after)[before.length + c]? = some (line[c]'(by omega)) := by
      rw [List.append_assoc, List.getElem?_append_right (by omega), List.getElem?_append_left (by omega)]
      simp
    rw [this, if_neg (by
      intro e; apply hl
      rw [← Option.some.inj e]; exact List.getElem_mem _)]
    exact ih (by omega)

theorem isWs_iff (b : UInt8) : isWs b = true ↔ b ∈ [(32 : UInt8), 9, 10, 12, 13] := by
  simp [isWs, or_assoc]

theorem trim_spec (l : List UInt8) : TrimmedEnd l (trimAsciiEnd l) := by
  refine ⟨(l.reverse.takeWhile isWs).reverse, ?_, ?_, ?_⟩
  · unfold trimAsciiEnd
    rw [← List.reverse_append, List.takeWhile_append_dropWhile, List.reverse_reverse]
  · intro b hb
    rw [List.mem_reverse] at hb
    exact (isWs_iff b).mp (List.all_eq_true.mp (List.all_takeWhile (p := isWs) (l := l.reverse)) b hb)
  · intro b hb
    unfold trimAsciiEnd at hb
    rw [List.getLast?_reverse] at hb
    rw [← isWs_iff]
    cases hd : l.reverse.dropWhile isWs with
    | nil => simp [hd] at hb
    | cons x xs =>
      rw [hd] at hb
      simp at hb; subst hb
      have := List.head?_dropWhile_not isWs l.reverse
      simpa [hd] using this

/-- C04: for a location `c` bytes into a line (the text between two newlines), the reported line number is one
more than the number of newlines before the line, the column is `c`, and the reported text is the line without
trailing white space. (`c` may point at the line's end; a `\r` may only occur in the line before `c`, because
the code also ends a line at `\r`.) -/
theorem C04_line_and_column (before line after : List UInt8) (c : Nat)
    (hb : before = [] ∨ before.getLast? = some 10) (hl : 10 ∉ line) (hcr : 13 ∉ line.drop c)
    (ha : after = [] ∨ after.head? = some 10 ∨ after.head? = some 13) (hc : c ≤ line.length) :
    lineNumberWithOffset (before ++ line ++ after) (before.length + c) = some (1 + before.count 10, c) ∧
    ∃ text, lineOf (before ++ line ++ after) (before.length + c) = some text ∧ TrimmedEnd line text := by
  constructor
  · unfold lineNumberWithOffset
    rw [if_pos (by simp only [List.length_append]; omega)]
    have : (before ++ line ++ after).take (before.length + c) = before ++ line.take c := by
      rw [List.append_assoc, List.take_length_add_append, List.take_append_of_le_length hc]
    rw [this, List.foldl_append]
    have e : before.foldl lineStep (1, 0) = (1 + before.count 10, 0) := by
      rcases hb with rfl | hb
      · rfl
      · exact Prod.ext (foldl_lineStep_count before 1 0) (foldl_lineStep_col before 1 0 hb)
    rw [e, foldl_lineStep _ _ _ (fun h => hl (List.mem_of_mem_take h)), List.length_take, Nat.min_eq_left hc]
    simp
  · have hdrop : (before ++ line ++ after).drop (before.length + c) = line.drop c ++ after := by
      rw [List.append_assoc, List.drop_length_add_append, List.drop_append_of_le_length hc]
    have hstop : scan (fun b => !(b == 13 || b == 10)) (before ++ line ++ after) (before.length + c)
        = before.length + line.length := by
      unfold scan
      rw [hdrop]
      have hall : ∀ b ∈ line.drop c, (!(b == 13 || b == 10)) = true := by
        intro b hb
        have h1 : b ≠ 10 := by rintro rfl; exact hl (List.mem_of_mem_drop hb)
        have h2 : b ≠ 13 := by rintro rfl; exact hcr hb
        simp [h1, h2]
      have : (line.drop c ++ after).takeWhile (fun b => !(b == 13 || b == 10)) = line.drop c := by
        rw [List.takeWhile_append_of_pos hall]
        rcases ha with rfl | ha | ha
        · simp
        · cases after with
          | nil => simp at ha
          | cons x xs => simp at ha; subst ha; simp
        · cases after with
          | nil => simp at ha
          | cons x xs => simp at ha; subst ha; simp
      rw [this, List.length_drop]; omega
    unfold lineOf
    rw [if_neg (by simp only [List.length_append]; omega)]
    simp only [hstop, lineStartOf_spec before line after c hb hl hc, Option.bind_eq_bind, Option.pure_def]
    rw [slice_some (by omega) (by simp only [List.length_append]; omega)]
    refine ⟨_, rfl, ?_⟩
    have : ((before ++ line ++ after).drop before.length).take (before.length + line.length - before.length)
        = line := by
      rw [List.append_assoc, List.drop_left, Nat.add_sub_cancel_left, List.take_left]
    rw [this]
    exact trim_spec line

example : lineNumberWithOffset (bs "ab\ncd \nef") 4 = some (2, 1) ∧
    lineOf (bs "ab\ncd \nef") 4 = some (bs "cd") := by decide
example : (bs "ab\n").getLast? = some 10 ∧ (10 : UInt8) ∉ bs "cd " ∧ (bs "\nef").head? = some 10 := by decide

/-- C54: the raw lines of a source are its newline-terminated lines: putting the newlines back gives the source
(with a final newline added if it had none), and no line contains a newline. -/
theorem C54_raw_lines (src : List UInt8) :
    (rawLines src).flatMap (· ++ [10])
      = (if src = [] ∨ src.getLast? = some 10 then src else src ++ [10]) ∧
    ∀ l ∈ rawLines src, 10 ∉ l := by
  fun_induction rawLines src with
  | case1 => simp
  | case2 b bs line ih =>
    have hno : ∀ x ∈ line, x ≠ 10 := by
      intro x hx
      have := List.all_eq_true.mp (List.all_takeWhile (p := fun x : UInt8 => x != 10) (l := b :: bs)) x hx
      simpa using this
    constructor
    · rw [List.flatMap_cons, ih.1]
      have hdec := List.takeWhile_append_dropWhile (p := fun x : UInt8 => x != 10) (l := b :: bs)
      have hdl : (b :: bs).dropWhile (fun x => x != 10) = (b :: bs).drop line.length := by
        conv => rhs; rw [← hdec]
        rw [show line = (b :: bs).takeWhile (fun x => x != 10) from rfl, List.drop_left]
      cases hd : (b :: bs).dropWhile (fun x => x != 10) with
      | nil =>
        rw [hd, List.append_nil] at hdec
        have hline : line = b :: bs := hdec
        rw [List.drop_eq_nil_of_le (by rw [hline]; omega)]
        have hlast : (b :: bs).getLast? ≠ some 10 := by
          intro h
          exact hno 10 (by rw [hline]; exact List.mem_of_getLast? h) rfl
        simp [hlast, hline]
      | cons x xs =>
        have hx : x = 10 := by
          have := List.head?_dropWhile_not (fun x : UInt8 => x != 10) (b :: bs)
          simpa [hd] using this
        subst hx
        have hrest : (b :: bs).drop (line.length + 1) = xs := by
          rw [← List.drop_drop, ← hdl, hd]; rfl
        rw [hrest]
        rw [hd] at hdec
        have hsrc : b :: bs = line ++ 10 :: xs := hdec.symm
        rw [hsrc]
        cases xs with
        | nil => simp
        | cons y ys =>
          have hgl : (line ++ 10 :: y :: ys).getLast? = (y :: ys).getLast? := by
            rw [List.getLast?_append, List.getLast?_cons_cons, List.getLast?_cons]; rfl
          rw [hgl]
          simp only [reduceCtorEq, false_or, List.append_eq_nil_iff, and_false]
          split <;> simp
    · intro l hl
      rcases List.mem_cons.mp hl with rfl | hl
      · exact fun h => hno 10 h rfl
      · exact ih.2 l hl

example : rawLines (bs "hello\nworld\n\n") = [bs "hello", bs "world", []] := by decide +kernel

end Verif.Props

import Verif.Model.Verbatim
import Verif.Spec.Verbatim
import Verif.Lemmas.DirText
import Verif.Lemmas.LexKinds
/-! Lemmas: delimited blocks whose lines are kept. -/
namespace Verif.Verbatim
open Verif Verif.Lexer Verif.Directives

/-! ### the tokens of a line -/

/-- the delimiter a fence stands for -/
def fenceDelim (D : List UInt8) : Delim :=
  if D = bs "----" then ⟨.listing, 4⟩ else if D = bs "```" then ⟨.listing, 3⟩ else if D = bs "...." then ⟨.literal, 4⟩ else ⟨.passthrough, 4⟩

def fenceBytes : List (List UInt8) := [bs "----", bs "```", bs "....", bs "++++"]

theorem toDelim_iff {t : Tok} {D : List UInt8} (hD : D ∈ fenceBytes) :
    toDelim t = some (fenceDelim D) ↔ t.kind = .DelimiterLine ∧ t.lexeme = D := by
  simp only [fenceBytes, List.mem_cons, List.not_mem_nil, or_false] at hD
  unfold toDelim toDelimKind
  constructor
  · intro h
    split at h
    · simp at h
    · rename_i hk
      refine ⟨by simpa using hk, ?_⟩
      rcases hD with rfl | rfl | rfl | rfl <;>
      · repeat' split at h
        all_goals simp [fenceDelim, bs, ch] at h ⊢
        all_goals try (rename_i h1 ; first | exact h1 | skip)
        all_goals (rename_i h1 ; rcases h1 with h1 | h1 <;> rw [h1] at h ⊢ <;> simp [bs, ch] at h ⊢)
  · rintro ⟨h1, h2⟩
    rw [if_neg (by simpa using h1), h2]
    rcases hD with rfl | rfl | rfl | rfl <;> decide

/-- the line is a delimiter line for the block: the delimiter, or three backticks and something that does not start with a backtick -/
def Opens (D line : List UInt8) : Prop := line = D ∨ D = bs "```" ∧ D <+: line ∧ line[3]? ≠ some (ch '`')

/-- what is needed to know about the tokens of a line -/
structure Ln (D : List UInt8) (toks : List Tok) : Prop where
  nil : lineBytes toks = [] → toks = []
  blank : emptyish toks = true → ∀ x ∈ lineBytes toks, isSpace x = true
  /-- the line starts with the delimiter -/
  starts : startsDelim (fenceDelim D) toks = true ↔ Opens D (lineBytes toks)
  closes : isDelim (fenceDelim D) toks = true ↔ lineBytes toks = D
  /-- only the first token can be a delimiter line -/
  later : ∀ t ∈ toks.tail, t.kind ≠ .DelimiterLine
  /-- white space at the start of the line is one token -/
  indent : toks = [] ∨ (∃ t ts, toks = t :: ts ∧ t.kind = .Whitespace ∧ t.lexeme = (lineBytes toks).takeWhile isSpace) ∨
    (∃ t ts, toks = t :: ts ∧ t.kind ≠ .Whitespace ∧ (lineBytes toks).takeWhile isSpace = [])

/-- the delimiter line at the start of a line does not depend on what is around the line -/
theorem delim_at {pre line post : List UInt8} {b : UInt8} (hpre : pre = [] ∨ pre.getLast? = some 10) (hpost : eol post[0]? = true) (hline : ∀ x ∈ b :: line, x ≠ 10 ∧ x ≠ 13) {D : List UInt8}
    (hD : D ∈ fenceBytes) :
    (∃ c, atDelimiterLine (pre ++ (b :: line) ++ post) pre.length = some (D.length, c) ∧ (b :: line).take D.length = D) ↔ Opens D (b :: line) := by
  have hget : ∀ i, (pre ++ (b :: line) ++ post)[pre.length + i]? = ((b :: line) ++ post)[i]? := by
    intro i
    rw [List.append_assoc, List.getElem?_append_right (by omega)]
    congr 1; omega
  have hls : atLineStart (pre ++ (b :: line) ++ post) pre.length = true := by
    unfold atLineStart
    rcases hpre with rfl | h
    · rfl
    · have : pre ≠ [] := by rintro rfl; cases h
      have hp := List.length_pos_iff.2 this
      rw [List.getLast?_eq_getElem?] at h
      rw [List.append_assoc, List.getElem?_append_left (by omega), h]
      simp
  have h0 := hget 0
  rw [Nat.add_zero] at h0
  simp only [List.cons_append, List.getElem?_cons_zero] at h0
  have hend : ∀ i, eol ((b :: line) ++ post)[i]? = true → i < (b :: line).length → False := by
    intro i h1 h2
    rw [List.getElem?_append_left h2, List.getElem?_eq_getElem h2] at h1
    have := hline _ (List.getElem_mem h2)
    rcases eol_iff.1 h1 with h | h | h
    · cases h
    · exact this.1 (Option.some.inj h)
    · exact this.2 (Option.some.inj h)
  have hfwd4 : ∀ c0 : UInt8, c0 ≠ ch '`' → c0 ≠ ch '=' → D = [c0, c0, c0, c0] → (∃ c, atDelimiterLine (pre ++ (b :: line) ++ post) pre.length = some (D.length, c) ∧ (b :: line).take D.length = D) →
      b :: line = D := by
    rintro c0 n1 n2 rfl ⟨c, h, ht⟩
    have hb : b = c0 := by simp at ht; exact ht.1
    subst hb
    have hl : 4 ≤ (b :: line).length := by
      have := congrArg List.length ht
      rw [List.length_take] at this
      simp only [List.length_cons, List.length_nil] at this ⊢
      omega
    unfold atDelimiterLine at h
    simp only [h0, hls, hget] at h
    split at h
    · cases h
    · rw [if_neg (by intro h; exact n1 h.1)] at h
      split at h
      · cases h
      split at h
      · rename_i h4
        have : ¬ 4 < (b :: line).length := fun hlt => hend 4 h4.2.2.2.2 hlt
        rw [← ht, List.take_of_length_le (by simp only [List.length_cons, List.length_nil] at *; omega)]
      · rw [if_neg (by intro h; exact n2 h.1)] at h
        cases h
  have hback4 : ∀ c0 : UInt8, c0 ≠ ch '`' → (bs "_-*=.+/`").contains c0 = true → (bs "*_-+./=").contains c0 = true → D = [c0, c0, c0, c0] → b :: line = D →
      (∃ c, atDelimiterLine (pre ++ (b :: line) ++ post) pre.length = some (D.length, c) ∧ (b :: line).take D.length = D) := by
    rintro c0 n1 m1 m2 rfl e
    refine ⟨c0, ?_, by rw [e]; rfl⟩
    unfold atDelimiterLine
    simp only [h0, hls, hget]
    injection e with e1 e2
    subst e1 e2
    have hc := hline b (by simp)
    rw [if_neg (by simp only [Bool.not_true, Bool.false_or, m1]; nofun), if_neg (by intro h; exact n1 h.1), if_neg (by
        rintro ⟨_, _, h⟩
        simp only [List.cons_append, List.getElem?_cons_succ, List.getElem?_cons_zero] at h
        rcases eol_iff.1 h with h | h | h
        · cases h
        · cases h; exact hc.1 rfl
        · cases h; exact hc.2 rfl), if_pos (by simp only [m2, true_and]; simpa using hpost)]
    rfl
  simp only [fenceBytes, List.mem_cons, List.not_mem_nil, or_false] at hD
  unfold Opens
  have four : ∀ c0 : UInt8, c0 ≠ ch '`' → c0 ≠ ch '=' → (bs "_-*=.+/`").contains c0 = true → (bs "*_-+./=").contains c0 = true → D = [c0, c0, c0, c0] →
      ((∃ c, atDelimiterLine (pre ++ (b :: line) ++ post) pre.length = some (D.length, c) ∧ (b :: line).take D.length = D) ↔
        (b :: line = D ∨ D = bs "```" ∧ D <+: b :: line ∧ (b :: line)[3]? ≠ some (ch '`'))) := by
    intro c0 n1 n2 m1 m2 e
    constructor
    · exact fun h => .inl (hfwd4 c0 n1 n2 e h)
    · rintro (h | ⟨h, _⟩)
      · exact hback4 c0 n1 m1 m2 e h
      · rw [e] at h
        exact absurd (congrArg List.length h) (by simp [bs])
  rcases hD with e | e | e | e
  · exact four (ch '-') (by decide) (by decide) (by decide) (by decide) e
  · subst e
    constructor
    · rintro ⟨c, h, ht⟩
      have hlen : (bs "```").length = 3 := rfl
      rw [hlen] at h ht
      refine .inr ⟨rfl, by rw [← ht]; exact List.take_prefix _ _, ?_⟩
      have hb : b = ch '`' := by simp [bs] at ht; exact ht.1
      subst hb
      unfold atDelimiterLine at h
      simp only [h0, hls, hget] at h
      split at h
      · cases h
      split at h
      · rename_i h3
        intro h4
        apply h3.2.2.2
        by_cases hl : 3 < (ch '`' :: line).length
        · rw [List.getElem?_append_left hl]; exact h4
        · rw [List.getElem?_eq_none (by omega)] at h4; cases h4
      · split at h
        · cases h
        split at h
        · cases h
        split at h
        · rename_i h5
          exact absurd h5.1 (by decide)
        · cases h
    · intro hh
      obtain ⟨h, h3⟩ : bs "```" <+: b :: line ∧ (b :: line)[3]? ≠ some (ch '`') := by
        rcases hh with h | ⟨_, h, h3⟩
        · rw [h]; exact ⟨List.prefix_refl _, by decide⟩
        · exact ⟨h, h3⟩
      refine ⟨ch '`', ?_, ?_⟩
      · obtain ⟨r, hr⟩ := h
        unfold atDelimiterLine
        simp only [h0, hls, hget]
        rw [← hr] at h3 ⊢
        injection hr with e1 e2
        subst e1
        rw [if_neg (by decide), if_pos]
        · rfl
        · refine ⟨rfl, rfl, rfl, ?_⟩
          intro h4
          cases r with
          | nil =>
            have h4 : post[0]? = some (ch '`') := h4
            rw [h4] at hpost
            revert hpost; decide
          | cons x r => exact h3 h4
      · obtain ⟨r, hr⟩ := h
        rw [← hr]; rfl
  · exact four (ch '.') (by decide) (by decide) (by decide) (by decide) e
  · exact four (ch '+') (by decide) (by decide) (by decide) (by decide) e

theorem lexLine_cons {plugins : List (List UInt8)} {pre post line : List UInt8} {b : UInt8} {fuel : Nat} {toks : List Tok} {q : Nat} (hpost : eol post[0]? = true)
    (hline : ∀ x ∈ b :: line, x ≠ 10 ∧ x ≠ 13) (h : lexLine (pre ++ (b :: line) ++ post) plugins fuel pre.length = some (toks, q)) :
    ∃ s k ts fuel', 0 < k ∧ k ≤ (b :: line).length ∧ Start (pre ++ (b :: line) ++ post) pre.length b s ∧ s.stop = pre.length + k ∧
      toks = ⟨s.kind, s.start, s.stop, (b :: line).take k⟩ :: ts ∧
      lexLine (pre ++ (b :: line).take k ++ (b :: line).drop k ++ post) plugins fuel' (pre ++ (b :: line).take k).length = some (ts, q) := by
  cases fuel with
  | zero => simp [lexLine] at h
  | succ fuel =>
    have hb : (pre ++ (b :: line) ++ post)[pre.length]? = some b := by simp
    obtain ⟨s, hs, hg⟩ := nextToken_good (plugins := plugins) (lt_length_of_getElem? hb)
    obtain ⟨k, hk0, hk, hst, hsp, hsl, hok⟩ := first_token hpost hline hs hg
    have hstart := nextToken_start hb (hline b (by simp)) hs
    unfold lexLine at h
    rw [if_neg (by
      rw [hb]
      have := hline b (by simp)
      intro h
      rcases eol_iff.1 h with h | h | h
      · cases h
      · exact this.1 (Option.some.inj h)
      · exact this.2 (Option.some.inj h)), hs] at h
    simp only [hsl, Option.bind_eq_bind, Option.bind_some, Option.bind_eq_some_iff] at h
    obtain ⟨⟨ts, q'⟩, h1, h2⟩ := h
    cases h2
    refine ⟨s, k, ts, fuel, hk0, hk, hstart, hsp, rfl, ?_⟩
    have hl : (pre ++ (b :: line).take k).length = s.pos := by
      have := hg.stop
      rw [List.length_append, List.length_take]; omega
    rw [hl, List.append_assoc pre, List.take_append_drop]
    exact h1

theorem take_isSpace {pre post line : List UInt8} {b : UInt8} {k : Nat} (hpost : eol post[0]? = true) (hb : isSpace b = true)
    (h : scan isSpace (pre ++ (b :: line) ++ post) (pre.length + 1) = pre.length + k) : (b :: line).take k = (b :: line).takeWhile isSpace := by
  unfold scan at h
  rw [List.append_assoc, List.drop_append, List.drop_of_length_le (by omega), List.nil_append, show pre.length + 1 - pre.length = 1 by omega] at h
  simp only [List.cons_append, List.drop_succ_cons, List.drop_zero] at h
  have hp : ∀ l : List UInt8, (l ++ post).takeWhile isSpace = l.takeWhile isSpace := by
    intro l
    induction l with
    | nil =>
      cases post with
      | nil => rfl
      | cons x post =>
        simp only [List.getElem?_cons_zero] at hpost
        have : isSpace x = false := by
          rcases eol_iff.1 hpost with h | h | h
          · cases h
          · cases h; decide
          · cases h; decide
        simp [this]
    | cons x l ih => simp only [List.cons_append, List.takeWhile_cons, ih]
  rw [hp] at h
  rw [List.takeWhile_cons, hb, if_pos rfl, show k = (line.takeWhile isSpace).length + 1 by omega, List.take_succ_cons]
  congr 1
  have := List.takeWhile_prefix isSpace (l := line)
  rw [List.prefix_iff_eq_take] at this
  exact this.symm

theorem lexLine_kinds {plugins : List (List UInt8)} {post : List UInt8} (hpost : eol post[0]? = true) :
    ∀ (n : Nat) (pre line : List UInt8) (fuel : Nat) (toks : List Tok) (q : Nat), line.length ≤ n → (∀ x ∈ line, x ≠ 10 ∧ x ≠ 13) →
    lexLine (pre ++ line ++ post) plugins fuel pre.length = some (toks, q) →
    ∀ t ∈ toks, t.kind ≠ .Newline ∧ (t.kind = .Whitespace → ∀ x ∈ t.lexeme, isSpace x = true) ∧ ((∃ x, pre.getLast? = some x ∧ x ≠ 10) → t.kind ≠ .DelimiterLine) := by
  intro n
  induction n with
  | zero =>
    intro pre line fuel toks q hn hl h
    have : line = [] := List.length_eq_zero_iff.1 (by omega)
    subst this
    cases fuel with
    | zero => simp [lexLine] at h
    | succ fuel =>
      unfold lexLine at h
      rw [List.append_nil, List.getElem?_append_right (Nat.le_refl _), Nat.sub_self, if_pos hpost] at h
      cases h; simp
  | succ n ih =>
    intro pre line fuel toks q hn hl h
    cases line with
    | nil => exact ih pre [] fuel toks q (by simp) hl h
    | cons b line =>
      obtain ⟨s, k, ts, fuel', hk0, hk, hst, hsp, rfl, hrest⟩ := lexLine_cons hpost hl h
      have hne : (b :: line).take k ≠ [] := by
        rw [show k = (k - 1) + 1 by omega]; simp
      have hih := ih _ _ fuel' ts q (by rw [List.length_drop]; simp only [List.length_cons] at hn ⊢; omega) (fun x hx => hl x (List.mem_of_mem_drop hx)) hrest
      intro t ht
      rcases List.mem_cons.1 ht with rfl | ht
      · simp only
        cases hst with
        | delim hd he =>
          subst he
          refine ⟨nofun, nofun, ?_⟩
          rintro ⟨x, hx, hx10⟩ -
          unfold atDelimiterLine at hd
          split at hd
          · cases hd
          · rename_i c hc
            have : atLineStart (pre ++ (b :: line) ++ post) pre.length = false := by
              unfold atLineStart
              have hpn : pre ≠ [] := by rintro rfl; cases hx
              have := List.length_pos_iff.2 hpn
              rw [List.getLast?_eq_getElem?] at hx
              rw [List.append_assoc, List.getElem?_append_left (by omega), hx]
              simp [hpn, hx10]
            rw [this] at hd
            simp at hd
        | space hsb he =>
          subst he
          refine ⟨nofun, fun _ => ?_, nofun⟩
          simp only at hsp
          rw [take_isSpace hpost hsb hsp]
          intro x hx
          exact (List.all_eq_true.1 (List.all_takeWhile (p := isSpace) (l := b :: line))) x hx
        | solid _ _ hs => exact ⟨hs.2.2, fun h => absurd h hs.1, fun _ => hs.2.1⟩
      · obtain ⟨h1, h2, h3⟩ := hih t ht
        refine ⟨h1, h2, fun _ => h3 ?_⟩
        rw [List.getLast?_append, List.getLast?_eq_some_getLast hne, Option.some_or]
        exact ⟨_, rfl, (hl _ (List.mem_of_mem_take (List.getLast_mem hne))).1⟩

theorem ln_of {plugins : List (List UInt8)} {toks : List Tok} {line D : List UInt8} (hD : D ∈ fenceBytes) (h : LineOf plugins toks line) :
    lineBytes toks = line ∧ Ln D toks := by
  obtain ⟨⟨pre, post, q, hpre, hne, hpost, hlex⟩, hclean, htext, hok⟩ := h
  have htext' : lineBytes toks = line := htext
  refine ⟨htext', ?_⟩
  have hkinds := lexLine_kinds hpost line.length pre line _ toks q (Nat.le_refl _) hclean hlex
  have hnil : lineBytes toks = [] → toks = [] := by
    intro h
    cases toks with
    | nil => rfl
    | cons t ts =>
      rw [lineBytes, List.flatMap_cons, List.append_eq_nil_iff] at h
      exact absurd h.1 (hok t (by simp)).ne
  have hblank : emptyish toks = true → ∀ x ∈ lineBytes toks, isSpace x = true := by
    intro h x hx
    simp only [emptyish, List.all_eq_true, Bool.or_eq_true, beq_iff_eq] at h
    obtain ⟨t, ht, hxt⟩ := List.mem_flatMap.1 hx
    obtain ⟨k1, k2, _⟩ := hkinds t ht
    rcases h t ht with h | h
    · exact k2 h x hxt
    · exact absurd h k1
  have hDne : D ≠ [] := by
    simp only [fenceBytes, List.mem_cons, List.not_mem_nil, or_false] at hD
    rcases hD with rfl | rfl | rfl | rfl <;> decide
  cases line with
  | nil =>
    have hno : ¬ Opens D [] := by
      rintro (h | ⟨_, h, _⟩)
      · exact hDne h.symm
      · exact hDne (List.prefix_nil.1 h)
    have := hnil htext'
    subst this
    refine ⟨hnil, hblank, ?_, ?_, by simp, .inl rfl⟩
    · constructor
      · intro h; simp [startsDelim] at h
      · intro h; exact absurd h hno
    · constructor
      · intro h; simp [isDelim] at h
      · intro h; exact absurd h.symm hDne
  | cons b line =>
    obtain ⟨s, k, ts, fuel', hk0, hk, hst, hsp, rfl, hrest⟩ := lexLine_cons hpost hclean hlex
    have hlater : ∀ t ∈ ts, t.kind ≠ .DelimiterLine := by
      have hne : (b :: line).take k ≠ [] := by
        rw [show k = (k - 1) + 1 by omega]; simp
      intro t ht
      refine (lexLine_kinds hpost _ _ _ _ _ _ (Nat.le_refl _) (fun x hx => hclean x (List.mem_of_mem_drop hx)) hrest t ht).2.2 ?_
      rw [List.getLast?_append, List.getLast?_eq_some_getLast hne, Option.some_or]
      exact ⟨_, rfl, (hclean _ (List.mem_of_mem_take (List.getLast_mem hne))).1⟩
    have hts : ts.flatMap Tok.lexeme = (b :: line).drop k := by
      have : (b :: line).take k ++ ts.flatMap Tok.lexeme = (b :: line).take k ++ (b :: line).drop k := by
        rw [List.take_append_drop]; exact htext
      exact List.append_cancel_left this
    have hstarts : startsDelim (fenceDelim D) (⟨s.kind, s.start, s.stop, (b :: line).take k⟩ :: ts) = true ↔ Opens D (b :: line) := by
      rw [startsDelim, List.head?_cons, Option.bind_some, beq_iff_eq, toDelim_iff hD]
      rw [← delim_at hpre hpost hclean hD]
      simp only
      constructor
      · rintro ⟨hkd, hl⟩
        cases hst with
        | delim hd he =>
          subst he
          simp only at hsp
          have hkl : k = D.length := by
            have := congrArg List.length hl
            rw [List.length_take] at this
            omega
          rename_i len c
          refine ⟨c, ?_, by rw [← hkl]; exact hl⟩
          rw [hd, ← hkl]
          congr 2; omega
        | space _ he => subst he; cases hkd
        | solid _ _ hs => exact absurd hkd hs.2.1
      · rintro ⟨c, h1, h2⟩
        cases hst with
        | delim hd he =>
          rw [h1] at hd
          cases hd
          subst he
          simp only at hsp
          exact ⟨rfl, by rw [show k = D.length by omega]; exact h2⟩
        | space hsb he =>
          unfold atDelimiterLine at h1
          rw [show (pre ++ (b :: line) ++ post)[pre.length]? = some b by simp] at h1
          simp only at h1
          have hc : (bs "_-*=.+/`").contains b = false := by
            simp only [isSpace, Bool.or_eq_true, beq_iff_eq] at hsb
            rcases hsb with ((h | h) | h) | h <;> subst h <;> decide
          rw [hc] at h1
          simp at h1
        | solid hd _ _ => rw [h1] at hd; cases hd
    refine ⟨hnil, hblank, by rw [htext']; exact hstarts, ?_, hlater, .inr ?_⟩
    · rw [htext']
      constructor
      · intro h
        simp only [isDelim, Bool.and_eq_true, beq_iff_eq, List.length_cons] at h
        have h2 := h.2
        rw [List.head?_cons, Option.bind_some, toDelim_iff hD] at h2
        have : ts = [] := List.length_eq_zero_iff.1 (by omega)
        subst this
        rw [← htext']
        simp only [lineBytes, List.flatMap_cons, List.flatMap_nil, List.append_nil]
        exact h2.2
      · intro h
        have hs := hstarts.2 (.inl h)
        rw [startsDelim, List.head?_cons, Option.bind_some, beq_iff_eq] at hs
        have hl := ((toDelim_iff hD).1 hs).2
        simp only at hl
        rw [← h] at hl
        have : ts = [] := by
          have : (b :: line).drop k = [] := by
            rw [List.drop_eq_nil_iff]
            have := congrArg List.length hl
            rw [List.length_take] at this
            omega
          rw [this] at hts
          cases ts with
          | nil => rfl
          | cons t ts =>
            rw [List.flatMap_cons, List.append_eq_nil_iff] at hts
            exact absurd hts.1 (hok t (by simp)).ne
        subst this
        simp only [isDelim, List.length_singleton, beq_self_eq_true, Bool.true_and, List.head?_cons, Option.bind_some, beq_iff_eq]
        exact hs
    · rw [htext']
      have hnsp : isSpace b = false → (b :: line).takeWhile isSpace = [] := by
        intro h; rw [List.takeWhile_cons, h]; rfl
      cases hst with
      | delim hd he =>
        subst he
        refine .inr ⟨_, _, rfl, nofun, hnsp ?_⟩
        unfold atDelimiterLine at hd
        rw [show (pre ++ (b :: line) ++ post)[pre.length]? = some b by simp] at hd
        simp only at hd
        split at hd
        · cases hd
        · rename_i hc
          cases hsb : isSpace b with
          | false => rfl
          | true =>
            exfalso
            apply hc
            have : (bs "_-*=.+/`").contains b = false := by
              simp only [isSpace, Bool.or_eq_true, beq_iff_eq] at hsb
              rcases hsb with ((h | h) | h) | h <;> subst h <;> decide
            rw [this]; simp
      | space hsb he =>
        subst he
        simp only at hsp
        exact .inl ⟨_, _, rfl, rfl, take_isSpace hpost hsb hsp⟩
      | solid _ hsb hs => exact .inr ⟨_, _, rfl, hs.1, hnsp hsb⟩

/-! ### reading lines -/

theorem readLoop_after {acc : List (List Tok)} (hacc : acc ≠ []) : ∀ Q : List (List Tok), ∃ a w r, readLoop acc Q = (acc ++ a, r) ∧ Q = a ++ w ++ r ∧ ∀ x ∈ w, emptyish x = true := by
  intro Q
  induction Q generalizing acc with
  | nil => exact ⟨[], [], [], by simp [readLoop], rfl, by simp⟩
  | cons l Q ih =>
    unfold readLoop
    split
    · rename_i he
      exact ⟨[], [l], Q, by simp, rfl, by simpa using he⟩
    · split
      · exact ⟨[l], [], Q, rfl, by simp, by simp⟩
      · obtain ⟨a, w, r, h1, h2, h3⟩ := ih (acc := acc ++ [l]) (by simp)
        exact ⟨l :: a, w, r, by rw [h1]; simp, by rw [h2]; simp, h3⟩

theorem readLoop_para {P : List (List Tok)} (hP : P ≠ []) (hp : ∀ x ∈ P, emptyish x = false) : ∀ (acc Q : List (List Tok)),
    ∃ a w r, readLoop acc (P ++ Q) = (acc ++ P ++ a, r) ∧ Q = a ++ w ++ r ∧ (∀ x ∈ w, emptyish x = true) ∧ (Q = [] ∨ Q.head? = some [] → a = [] ∧ r = Q) := by
  induction P with
  | nil => exact absurd rfl hP
  | cons p P ih =>
    intro acc Q
    rw [List.cons_append, readLoop, if_neg (by simp [hp p (by simp)])]
    by_cases hPn : P = []
    · subst hPn
      rw [List.nil_append]
      split
      · exact ⟨[], [], Q, by simp, by simp, by simp, fun _ => ⟨rfl, rfl⟩⟩
      · rename_i hh
        obtain ⟨a, w, r, h1, h2, h3⟩ := readLoop_after (acc := acc ++ [p]) (by simp) Q
        refine ⟨a, w, r, by rw [h1], h2, h3, ?_⟩
        rintro (h | h)
        · subst h
          simp only [List.nil_eq, List.append_eq_nil_iff] at h2
          exact ⟨h2.1.1, h2.2⟩
        · exact absurd h hh
    · rw [if_neg (by
        cases P with
        | nil => exact absurd rfl hPn
        | cons x P =>
          rw [List.cons_append, List.head?_cons]
          intro h
          have := hp x (by simp)
          rw [Option.some.inj h] at this
          simp [emptyish] at this)]
      obtain ⟨a, w, r, h1, h2, h3, h4⟩ := ih hPn (fun x hx => hp x (by simp [hx])) (acc ++ [p]) Q
      exact ⟨a, w, r, by rw [h1]; simp, h2, h3, h4⟩

/-- how far the lines of a chunk go in the lines of a block and what is after it -/
inductive Chunked (C : List (List Tok)) (X : List Tok) (A : List (List Tok)) : List (List Tok) × List (List Tok) → Prop where
  | whole {a w r} : [] ∉ C → A = a ++ w ++ r → (∀ x ∈ w, emptyish x = true) → (A = [] ∨ A.head? = some [] → a = [] ∧ r = A) → Chunked C X A (C ++ X :: a, r)
  | part {C4 C5} : C = C4 ++ [] :: C5 → [] ∉ C4 → Chunked C X A (C4, [] :: C5 ++ X :: A)

theorem first_empty (C : List (List Tok)) : [] ∉ C ∨ ∃ C4 C5, C = C4 ++ [] :: C5 ∧ [] ∉ C4 := by
  induction C with
  | nil => exact .inl (by simp)
  | cons c C ih =>
    by_cases hc : c = []
    · subst hc; exact .inr ⟨[], C, rfl, by simp⟩
    · rcases ih with h | ⟨a, b, h1, h2⟩
      · exact .inl (by simp only [List.mem_cons, not_or]; exact ⟨fun e => hc e.symm, h⟩)
      · exact .inr ⟨c :: a, b, by rw [h1]; rfl, by simp only [List.mem_cons, not_or]; exact ⟨fun e => hc e.symm, h2⟩⟩

theorem chunk {pfx C A : List (List Tok)} {X : List Tok} (hpfx : ∀ x ∈ pfx, emptyish x = false) (hC : ∀ c ∈ C, emptyish c = true → c = []) (hX : emptyish X = false)
    (hne : pfx ≠ [] ∨ C.head? ≠ some []) : ∃ c, Chunked C X A c ∧ readLoop [] (pfx ++ (C ++ X :: A)) = (pfx ++ c.1, c.2) := by
  have hC' : ∀ c ∈ C, c ≠ [] → emptyish c = false := by
    intro c hc hn
    cases h : emptyish c with
    | false => rfl
    | true => exact absurd (hC c hc h) hn
  rcases first_empty C with h | ⟨C4, C5, hs, h4⟩
  · obtain ⟨a, w, r, h1, h2, h3, h4⟩ := readLoop_para (P := pfx ++ C ++ [X]) (by simp) (by
      intro x hx
      simp only [List.mem_append, List.mem_singleton] at hx
      rcases hx with (hx | hx) | rfl
      · exact hpfx x hx
      · exact hC' x hx (fun e => h (e ▸ hx))
      · exact hX) [] A
    refine ⟨_, .whole h h2 h3 h4, ?_⟩
    rw [show pfx ++ (C ++ X :: A) = pfx ++ C ++ [X] ++ A by simp, h1]
    simp
  · obtain ⟨a, w, r, h1, h2, h3, h4'⟩ := readLoop_para (P := pfx ++ C4) (by
      intro h
      rw [List.append_eq_nil_iff] at h
      rcases hne with hh | hh
      · exact hh h.1
      · rw [hs, h.2] at hh; exact hh rfl) (by
      intro x hx
      simp only [List.mem_append] at hx
      rcases hx with hx | hx
      · exact hpfx x hx
      · exact hC' x (by rw [hs]; simp [hx]) (fun e => h4 (e ▸ hx))) [] ([] :: C5 ++ X :: A)
    obtain ⟨rfl, rfl⟩ := h4' (.inr rfl)
    refine ⟨_, .part hs h4, ?_⟩
    rw [hs, show pfx ++ (C4 ++ [] :: C5 ++ X :: A) = pfx ++ C4 ++ ([] :: C5 ++ X :: A) by simp, h1]
    simp

theorem takeWhile_before {C A : List (List Tok)} {X : List Tok} {d : Delim} (hC : ∀ c ∈ C, startsDelim d c = false) (hX : startsDelim d X = true) :
    (C ++ X :: A).takeWhile (!startsDelim d ·) = C ∧ (C ++ X :: A).dropWhile (!startsDelim d ·) = X :: A := by
  induction C with
  | nil => simp [hX]
  | cons c C ih =>
    obtain ⟨h1, h2⟩ := ih (fun x hx => hC x (by simp [hx]))
    simp [hC c (by simp), h1, h2]

theorem takeWhile_all {C : List (List Tok)} {d : Delim} (hC : ∀ c ∈ C, startsDelim d c = false) :
    C.takeWhile (!startsDelim d ·) = C ∧ C.dropWhile (!startsDelim d ·) = [] := by
  induction C with
  | nil => simp
  | cons c C ih =>
    obtain ⟨h1, h2⟩ := ih (fun x hx => hC x (by simp [hx]))
    simp [hC c (by simp), h1, h2]

theorem isDelim_starts {d : Delim} {l : List Tok} (h : isDelim d l = true) : startsDelim d l = true := by
  simp only [isDelim, Bool.and_eq_true] at h
  exact h.2

theorem starts_ne {d : Delim} {l : List Tok} (h : startsDelim d l = true) : l ≠ [] ∧ emptyish l = false := by
  cases l with
  | nil => simp [startsDelim] at h
  | cons t ts =>
    refine ⟨nofun, ?_⟩
    rw [startsDelim, List.head?_cons, Option.bind_some, beq_iff_eq] at h
    have hk : t.kind = .DelimiterLine := by
      unfold toDelim toDelimKind at h
      split at h
      · cases h
      · rename_i hk; simpa using hk
    simp [emptyish, hk]

theorem readLines_peeked {p r : List (List Tok)} (h : p ≠ []) : readLines p r = some (p, r) := by simp [readLines, h]

theorem popEmpty_sub {C : List (List Tok)} : ∀ c ∈ popEmpty C, c ∈ C := by
  intro c hc
  have := List.mem_reverse.1 hc
  exact List.mem_reverse.1 ((List.dropWhile_sublist _).subset this)

theorem popEmpty_full {C : List (List Tok)} (h : [] ∉ C) : popEmpty C = C := by
  unfold popEmpty
  have : C.reverse.dropWhile (·.isEmpty) = C.reverse := by
    cases hr : C.reverse with
    | nil => rfl
    | cons x l =>
      rw [List.dropWhile_cons_of_neg]
      intro hx
      rw [List.isEmpty_iff] at hx
      subst hx
      exact h (List.mem_reverse.1 (by rw [hr]; simp))
  rw [this, List.reverse_reverse]

theorem dropEmpty_full {C : List (List Tok)} (h : [] ∉ C) : C.dropWhile (·.isEmpty) = C := by
  cases C with
  | nil => rfl
  | cons x l =>
    rw [List.dropWhile_cons_of_neg]
    intro hx
    rw [List.isEmpty_iff] at hx
    subst hx
    exact h (by simp)

/-- the second half of `block` -/
def finish (d : Delim) (indent : Option Nat) (x : List (List Tok) × List (List Tok)) : Option Block :=
  let ls := reindent indent x.1
  let content := ls.takeWhile (!startsDelim d ·)
  match readLines (ls.dropWhile (!startsDelim d ·)) x.2 with
  | none => some ⟨content, false, [], []⟩
  | some (l :: after, rest) =>
    if isDelim d l then some ⟨content, true, after, rest⟩ else some ⟨content, false, [], rest⟩
  | some ([], rest) => some ⟨content, false, [], rest⟩

theorem block_eq {indent : Option Nat} {lines more rest : List (List Tok)} {first : List Tok} {d : Delim} (h : readLines [] lines = some (first :: more, rest))
    (hd : startsDelim d first = true) : block indent lines = finish d indent (readUntil d more rest) := by
  unfold block
  rw [h]
  simp only
  rw [startsDelim, beq_iff_eq] at hd
  rw [hd]
  rfl

theorem finish_peeked {d : Delim} {C a r : List (List Tok)} {X : List Tok} (hC : ∀ c ∈ C, startsDelim d c = false) (hX : isDelim d X = true) :
    finish d none (C ++ X :: a, r) = some ⟨C, true, a, r⟩ := by
  unfold finish
  simp only [reindent]
  obtain ⟨h1, h2⟩ := takeWhile_before (A := a) hC (isDelim_starts hX)
  rw [h1, h2, readLines_peeked (by simp)]
  simp only
  rw [if_pos hX]

theorem finish_rest {d : Delim} {C A : List (List Tok)} {X : List Tok} (hC : ∀ c ∈ C, startsDelim d c = false) (hX : isDelim d X = true) :
    ∃ a w r, finish d none (C, X :: A) = some ⟨C, true, a, r⟩ ∧ A = a ++ w ++ r ∧ ∀ x ∈ w, emptyish x = true := by
  obtain ⟨h1, h2⟩ := takeWhile_all hC
  obtain ⟨hx1, hx2⟩ := starts_ne (isDelim_starts hX)
  obtain ⟨a, w, r, e1, e2, e3, _⟩ := readLoop_para (P := [X]) (by simp) (by simpa using hx2) [] A
  refine ⟨a, w, r, ?_, e2, e3⟩
  unfold finish
  simp only [reindent]
  rw [h1, h2]
  have : readLines [] (X :: A) = some (X :: a, r) := by
    unfold readLines
    rw [if_neg (by simp)]
    simp only
    rw [List.dropWhile_cons_of_neg (by simpa using hx1), show X :: A = [X] ++ A by rfl, e1]
    simp
  rw [this]
  simp only
  rw [if_pos hX]

/-- the content of a block without `indent` -/
theorem block_plain {d : Delim} {O X : List Tok} {C A : List (List Tok)} (hO : startsDelim d O = true) (hX : isDelim d X = true)
    (hC : ∀ c ∈ C, startsDelim d c = false) (hE : ∀ c ∈ C, emptyish c = true → c = []) :
    ∃ a w r, block none (O :: (C ++ X :: A)) = some ⟨popEmpty (C.dropWhile (·.isEmpty)), true, a, r⟩ ∧ A = a ++ w ++ r ∧ ∀ x ∈ w, emptyish x = true := by
  obtain ⟨ho1, ho2⟩ := starts_ne hO
  obtain ⟨hx1, hx2⟩ := starts_ne (isDelim_starts hX)
  have nod : ∀ {l : List (List Tok)}, (∀ c ∈ l, startsDelim d c = false) → l.any (isDelim d) = false := by
    intro l hl
    rw [List.any_eq_false]
    intro c hc h
    exact absurd (isDelim_starts h) (by rw [hl c hc]; simp)
  obtain ⟨c, hch, hrd⟩ := chunk (pfx := [O]) (A := A) (by simpa using ho2) hE hx2 (.inl (by simp))
  have hread : readLines [] (O :: (C ++ X :: A)) = some (O :: c.1, c.2) := by
    unfold readLines
    rw [if_neg (by simp)]
    simp only
    rw [List.dropWhile_cons_of_neg (by simpa using ho1)]
    rw [show O :: (C ++ X :: A) = [O] ++ (C ++ X :: A) by rfl, hrd]
    simp
  rw [block_eq hread hO]
  cases hch with
  | @whole a w r hn h1 h2 _ =>
    refine ⟨a, w, r, ?_, h1, h2⟩
    have : readUntil d (C ++ X :: a) r = (C ++ X :: a, r) := by
      unfold readUntil
      rw [readLines_peeked (by simp)]
      simp only
      rw [if_pos (by simp [hX])]
    rw [this, finish_peeked hC hX, dropEmpty_full hn, popEmpty_full hn]
  | @part C4 C5 hs h4 =>
    subst hs
    by_cases h4n : C4 = []
    · subst h4n
      have hC5 : ∀ c ∈ C5, startsDelim d c = false := fun c hc => hC c (by simp [hc])
      have hE5 : ∀ c ∈ C5, emptyish c = true → c = [] := fun c hc => hE c (by simp [hc])
      have hdrop : ([] :: C5 ++ X :: A).dropWhile (·.isEmpty) = C5.dropWhile (·.isEmpty) ++ X :: A := by
        rw [List.cons_append, List.dropWhile_cons_of_pos rfl]
        have : ∀ l : List (List Tok), (l ++ X :: A).dropWhile (·.isEmpty) = l.dropWhile (·.isEmpty) ++ X :: A := by
          intro l
          induction l with
          | nil => rw [List.nil_append, List.dropWhile_cons_of_neg (by simpa using hx1)]; rfl
          | cons x l ih =>
            rw [List.cons_append]
            by_cases hx : x.isEmpty = true
            · rw [List.dropWhile_cons_of_pos hx, List.dropWhile_cons_of_pos hx, ih]
            · rw [List.dropWhile_cons_of_neg hx, List.dropWhile_cons_of_neg hx]; rfl
        exact this C5
      have hsub : ∀ c ∈ C5.dropWhile (·.isEmpty), c ∈ C5 := fun c hc => (List.dropWhile_sublist _).subset hc
      obtain ⟨c, hch, hrd⟩ := chunk (pfx := []) (C := C5.dropWhile (·.isEmpty)) (A := A) (by simp) (fun c hc => hE5 c (hsub c hc)) hx2 (.inr (by
        intro h
        have := List.head?_dropWhile_not (·.isEmpty) C5
        rw [h] at this
        simp at this))
      have hread : readLines [] ([] :: C5 ++ X :: A) = some c := by
        unfold readLines
        rw [if_neg (by simp)]
        simp only
        rw [hdrop]
        rw [List.nil_append] at hrd
        rw [hrd]
        simp only [List.nil_append]
        rw [if_neg]
        intro h
        cases hch with
        | whole => simp at h
        | @part C7 C8 h7 _ =>
          simp only at h
          subst h
          have := List.head?_dropWhile_not (·.isEmpty) C5
          rw [h7] at this
          simp at this
      have hgoal : ([] ++ [] :: C5).dropWhile (·.isEmpty) = C5.dropWhile (·.isEmpty) := by simp
      rw [hgoal]
      unfold readUntil
      simp only
      rw [hread]
      cases hch with
      | @whole a w r hn h1 h2 _ =>
        refine ⟨a, w, r, ?_, h1, h2⟩
        simp only
        rw [if_pos (by simp [hX]), finish_peeked (fun c hc => hC5 c (hsub c hc)) hX, popEmpty_full hn]
      | @part C7 C8 h7 _ =>
        have hC7 : ∀ c ∈ C7 ++ [] :: C8, startsDelim d c = false := fun c hc => hC5 c (hsub c (by rw [h7]; exact hc))
        simp only
        rw [nod (fun c hc => hC7 c (by simp [hc]))]
        simp only [Bool.false_eq_true, if_false]
        obtain ⟨t1, t2⟩ := takeWhile_before (C := [] :: C8) (A := A) (fun c hc => hC7 c (by
          rcases List.mem_cons.1 hc with rfl | hc
          · simp
          · simp [hc])) (isDelim_starts hX)
        rw [t1, t2, h7]
        exact finish_rest (fun c hc => hC7 c (popEmpty_sub c hc)) hX
    · unfold readUntil
      simp only
      rw [readLines_peeked h4n]
      simp only
      rw [nod (fun c hc => hC c (by simp [hc]))]
      simp only [Bool.false_eq_true, if_false]
      obtain ⟨t1, t2⟩ := takeWhile_before (C := [] :: C5) (A := A) (fun c hc => hC c (by
          rcases List.mem_cons.1 hc with rfl | hc
          · simp
          · simp [hc])) (isDelim_starts hX)
      rw [t1, t2]
      have : (C4 ++ [] :: C5).dropWhile (·.isEmpty) = C4 ++ [] :: C5 := by
        cases C4 with
        | nil => exact absurd rfl h4n
        | cons x C4 =>
          rw [List.cons_append, List.dropWhile_cons_of_neg]
          intro hx
          rw [List.isEmpty_iff] at hx
          subst hx
          exact h4 (by simp)
      rw [this]
      exact finish_rest (fun c hc => hC c (popEmpty_sub c hc)) hX

/-! ### indentation -/

theorem lineIndent_eq {D : List UInt8} {c : List Tok} (h : Ln D c) : lineIndent c = ((lineBytes c).takeWhile isSpace).length := by
  rcases h.indent with rfl | ⟨t, ts, rfl, hk, hl⟩ | ⟨t, ts, rfl, hk, hl⟩
  · rfl
  · rw [lineIndent, if_pos hk, hl]
  · rw [lineIndent, if_neg hk, hl]; rfl

theorem setLineIndent_bytes {D : List UInt8} {c : List Tok} (h : Ln D c) (hc : c ≠ []) (hsp : ∀ x ∈ (lineBytes c).takeWhile isSpace, x = 32) (n : Nat) :
    lineBytes (setLineIndent n c) = List.replicate n 32 ++ (lineBytes c).drop (lineIndent c) := by
  have hli := lineIndent_eq h
  rcases h.indent with rfl | ⟨t, ts, rfl, hk, hl⟩ | ⟨t, ts, rfl, hk, hl⟩
  · exact absurd rfl hc
  · rw [← hl] at hsp
    have hrep : t.lexeme = List.replicate t.lexeme.length 32 := List.eq_replicate_of_mem hsp
    have hlen : lineIndent (t :: ts) = t.lexeme.length := by rw [lineIndent, if_pos hk]
    have hdrop : (lineBytes (t :: ts)).drop t.lexeme.length = lineBytes ts := by
      simp [lineBytes]
    rw [hlen, hdrop]
    rw [setLineIndent]
    split
    · split
      · rename_i h0; subst h0; simp
      · rename_i h1 h2
        show t.lexeme.take n ++ lineBytes ts = _
        rw [hrep, List.take_replicate, Nat.min_eq_left (by omega)]
    · split
      · show t.lexeme ++ List.replicate _ 32 ++ lineBytes ts = _
        conv => lhs; rw [hrep]
        rw [List.length_replicate, List.replicate_append_replicate]
        congr 2; omega
      · rw [if_neg (by simp [hk])]
        show t.lexeme ++ lineBytes ts = _
        rename_i h1 h2
        have : t.lexeme.length = n := by
          simp only [hk, true_and] at h1 h2; omega
        rw [← this]; congr 1
  · have hlen : lineIndent (t :: ts) = 0 := by rw [lineIndent, if_neg hk]
    rw [hlen, List.drop_zero]
    rw [setLineIndent]
    rw [if_neg (by simp [hk]), if_neg (by simp [hk])]
    split
    · show List.replicate n 32 ++ lineBytes (t :: ts) = _
      rfl
    · rename_i h1
      have : n = 0 := by simp only [ne_eq, hk, not_false_eq_true, true_and, Decidable.not_not] at h1; exact h1
      subst this; rfl

theorem toDelim_kind {t : Tok} {d : Delim} (h : toDelim t = some d) : t.kind = .DelimiterLine := by
  unfold toDelim toDelimKind at h
  split at h
  · cases h
  · rename_i hk; simpa using hk

theorem setLineIndent_starts {D : List UInt8} {c : List Tok} (h : Ln D c) {d : Delim} (hs : startsDelim d c = false) (n : Nat) : startsDelim d (setLineIndent n c) = false := by
  have ws : ∀ (t : Tok) (ts : List Tok), t.kind = .Whitespace → startsDelim d (t :: ts) = false := by
    intro t ts hk
    cases h : startsDelim d (t :: ts) with
    | false => rfl
    | true =>
      rw [startsDelim, List.head?_cons, Option.bind_some, beq_iff_eq] at h
      rw [toDelim_kind h] at hk
      cases hk
  cases c with
  | nil => rfl
  | cons t ts =>
    rw [setLineIndent]
    split
    · rename_i hk
      split
      · cases ts with
        | nil => rfl
        | cons u us =>
          cases hh : startsDelim d (u :: us) with
          | false => rfl
          | true =>
            rw [startsDelim, List.head?_cons, Option.bind_some, beq_iff_eq] at hh
            exact absurd (toDelim_kind hh) (h.later u (by simp))
      · exact ws _ _ hk.1
    · split
      · rename_i hk; exact ws _ _ hk.1
      · split
        · exact ws _ _ rfl
        · exact hs

theorem indentOf_spec {c : List Tok} {C : List (List Tok)} : (∀ x ∈ c :: C, indentOf (c :: C) ≤ lineIndent x) ∧ ∃ x ∈ c :: C, lineIndent x = indentOf (c :: C) := by
  have key : ∀ (C : List (List Tok)) (n : Nat), (C.foldl (fun n l => if lineIndent l < n then lineIndent l else n) n ≤ n) ∧
      (∀ x ∈ C, C.foldl (fun n l => if lineIndent l < n then lineIndent l else n) n ≤ lineIndent x) ∧
      (C.foldl (fun n l => if lineIndent l < n then lineIndent l else n) n = n ∨ ∃ x ∈ C, lineIndent x = C.foldl (fun n l => if lineIndent l < n then lineIndent l else n) n) := by
    intro C
    induction C with
    | nil => intro n; simp
    | cons x C ih =>
      intro n
      rw [List.foldl_cons]
      obtain ⟨h1, h2, h3⟩ := ih (if lineIndent x < n then lineIndent x else n)
      generalize hg : C.foldl (fun n l => if lineIndent l < n then lineIndent l else n) (if lineIndent x < n then lineIndent x else n) = g at *
      refine ⟨?_, ?_, ?_⟩
      · split at h1 <;> omega
      · intro y hy
        rcases List.mem_cons.1 hy with rfl | hy
        · split at h1 <;> omega
        · exact h2 y hy
      · rcases h3 with h3 | ⟨y, hy, h3⟩
        · split at h3
          · exact .inr ⟨x, by simp, h3.symm⟩
          · exact .inl h3
        · exact .inr ⟨y, by simp [hy], h3⟩
  obtain ⟨h1, h2, h3⟩ := key C (lineIndent c)
  unfold indentOf
  refine ⟨?_, ?_⟩
  · intro x hx
    rcases List.mem_cons.1 hx with rfl | hx
    · exact h1
    · exact h2 x hx
  · rcases h3 with h3 | ⟨y, hy, h3⟩
    · exact ⟨c, by simp, h3.symm⟩
    · exact ⟨y, by simp [hy], h3⟩

/-- the content of a block with `indent` -/
theorem block_indent {d : Delim} {O X : List Tok} {C A : List (List Tok)} {n : Nat} (hO : startsDelim d O = true) (hX : isDelim d X = true)
    (hE : ∀ c ∈ C, emptyish c = false) (hA : A = [] ∨ A.head? = some [])
    (hI : ∀ c ∈ setIndent n C, startsDelim d c = false) :
    block (some n) (O :: (C ++ X :: A)) = some ⟨setIndent n C, true, [], A⟩ := by
  obtain ⟨ho1, ho2⟩ := starts_ne hO
  obtain ⟨hx1, hx2⟩ := starts_ne (isDelim_starts hX)
  obtain ⟨c, hch, hrd⟩ := chunk (pfx := [O]) (C := C) (A := A) (by simpa using ho2) (fun c hc h => by rw [hE c hc] at h; cases h) hx2 (.inl (by simp))
  have hread : readLines [] (O :: (C ++ X :: A)) = some (O :: c.1, c.2) := by
    unfold readLines
    rw [if_neg (by simp)]
    simp only
    rw [List.dropWhile_cons_of_neg (by simpa using ho1)]
    rw [show O :: (C ++ X :: A) = [O] ++ (C ++ X :: A) by rfl, hrd]
    simp
  rw [block_eq hread hO]
  cases hch with
  | @part C4 C5 hs _ =>
    have := hE [] (by rw [hs]; simp)
    simp [emptyish] at this
  | @whole a w r hn h1 h2 h3 =>
    obtain ⟨rfl, rfl⟩ := h3 hA
    have : readUntil d (C ++ [X]) r = (C ++ [X], r) := by
      unfold readUntil
      rw [readLines_peeked (by simp)]
      simp only
      rw [if_pos (by simp [hX])]
    simp only
    rw [this]
    unfold finish
    simp only [reindent, List.getLast?_append, List.getLast?_singleton, Option.some_or, List.dropLast_concat]
    obtain ⟨t1, t2⟩ := takeWhile_before (A := []) hI (isDelim_starts hX)
    rw [t1, t2, readLines_peeked (by simp)]
    simp only
    rw [if_pos hX]

/-! ### texts -/

theorem encode_inj {a b : List Char} (h : encode a = encode b) : a = b := by
  have h1 : lineText [⟨.Word, 0, 0, encode a⟩] = a := lineText_eq (by simp)
  have h2 : lineText [⟨.Word, 0, 0, encode b⟩] = b := lineText_eq (by simp)
  rw [← h1, ← h2, h]

theorem space_char {c : Char} {b : UInt8} {l r : List UInt8} (hb : isSpace b = true) (h : String.utf8EncodeChar c ++ l = b :: r) : isBlankChar c = true ∧ [b] = String.utf8EncodeChar c := by
  have key : ∀ d : Char, d.toNat < 128 → ch d = b → isBlankChar d = true → isBlankChar c = true ∧ [b] = String.utf8EncodeChar c := by
    intro d hd he hbl
    rw [← he] at h
    obtain ⟨rfl, _⟩ := enc_head hd h
    exact ⟨hbl, by rw [enc_ascii hd, he]⟩
  simp only [isSpace, Bool.or_eq_true, beq_iff_eq] at hb
  rcases hb with ((h | h) | h) | h
  · exact key ' ' (by decide) (by rw [h]; rfl) (by decide)
  · exact key '\t' (by decide) (by rw [h]; rfl) (by decide)
  · exact key (Char.ofNat 0x0B) (by decide) (by rw [h]; rfl) (by decide)
  · exact key (Char.ofNat 0x0C) (by decide) (by rw [h]; rfl) (by decide)

theorem enc_cons (c : Char) : ∃ b l, String.utf8EncodeChar c = b :: l := by
  cases h : String.utf8EncodeChar c with
  | nil =>
    have := encode_ne (a := [c]) (by simp)
    simp [encode, h] at this
  | cons b l => exact ⟨b, l, rfl⟩

theorem blank_of {cs : List Char} (h : ∀ x ∈ encode cs, isSpace x = true) : isBlank cs = true := by
  rw [isBlank, List.all_eq_true]
  intro c hc
  obtain ⟨b, l, hb⟩ := enc_cons c
  have hm : b ∈ encode cs := List.mem_flatMap.2 ⟨c, hc, by rw [hb]; simp⟩
  exact (space_char (l := []) (h b hm) (by rw [List.append_nil, hb])).1

theorem takeWhile_encode {k : Nat} {c : Char} {body : List Char} (hc : isBlankChar c = false) :
    (encode (List.replicate k ' ' ++ c :: body)).takeWhile isSpace = List.replicate k 32 := by
  have h1 : encode (List.replicate k ' ') = List.replicate k 32 := by
    rw [enc_bs (by intro d hd; rw [(List.mem_replicate.1 hd).2]; decide), List.map_replicate]; rfl
  rw [encode_append, h1, List.takeWhile_append_of_pos (by intro x hx; rw [(List.mem_replicate.1 hx).2]; decide)]
  obtain ⟨b, l, hb⟩ := enc_cons c
  have : isSpace b = false := by
    cases h : isSpace b with
    | false => rfl
    | true =>
      have := (space_char (l := []) h (by rw [List.append_nil, hb])).1
      rw [hc] at this; cases this
  rw [encode, List.flatMap_cons, hb, List.cons_append, List.takeWhile_cons, this]
  simp

theorem Pairs.split {α β : Type} {R : α → β → Prop} : ∀ {b1 b2 : List β} {as : List α}, Pairs R as (b1 ++ b2) → ∃ a1 a2, as = a1 ++ a2 ∧ Pairs R a1 b1 ∧ Pairs R a2 b2 := by
  intro b1
  induction b1 with
  | nil => intro b2 as h; exact ⟨[], as, rfl, .nil, h⟩
  | cons b b1 ih =>
    intro b2 as h
    cases h with
    | cons h1 h2 =>
      obtain ⟨a1, a2, rfl, g1, g2⟩ := ih h2
      exact ⟨_ :: a1, a2, rfl, .cons h1 g1, g2⟩

/-- the tokens belong to the text -/
structure Is (plugins : List (List UInt8)) (D : List UInt8) (toks : List Tok) (line : List Char) : Prop where
  ln : Ln D toks
  bytes : lineBytes toks = encode line
  text : lineText toks = line
  plain : plainLine toks = true

theorem Is.of {plugins : List (List UInt8)} {D : List UInt8} (hD : D ∈ fenceBytes) {toks : List Tok} {line : List Char} (hp : PlainText line) (h : LineOf plugins toks (encode line)) :
    Is plugins D toks line := by
  obtain ⟨h1, h2⟩ := ln_of hD h
  have ht := lineText_eq h.text
  refine ⟨h2, h1, ht, ?_⟩
  unfold plainLine inModel
  rw [ht]
  have hk := no_dir h.text h.ok hp.noDirective
  simp only [Bool.and_eq_true, Bool.not_eq_true', bne_iff_ne, ne_eq]
  refine ⟨⟨?_, hp.noEntry⟩, ?_⟩
  · simpa using hp.noRef
  · cases toks with
    | nil => simp
    | cons t ts =>
      have := hk t (by simp)
      simpa using this

theorem Is.nil_iff {plugins : List (List UInt8)} {D : List UInt8} {toks : List Tok} {line : List Char} (h : Is plugins D toks line) : toks = [] ↔ line = [] := by
  constructor
  · rintro rfl
    cases line with
    | nil => rfl
    | cons c l => exact absurd h.bytes.symm (encode_ne (by simp))
  · rintro rfl
    exact h.ln.nil (by rw [h.bytes]; rfl)

theorem Is.blank {plugins : List (List UInt8)} {D : List UInt8} {toks : List Tok} {line : List Char} (h : Is plugins D toks line) (he : emptyish toks = true) : isBlank line = true := by
  have := h.ln.blank he
  rw [h.bytes] at this
  exact blank_of this

/-- fences and their bytes -/
theorem fence_bytes {fence : List Char} (h : fence ∈ fences) : encode fence ∈ fenceBytes ∧ PlainText fence := by
  simp only [fences, List.mem_cons, List.not_mem_nil, or_false] at h
  have nd : ∀ c : Char, ∀ n, c ∉ [':'] → NoDirective (List.replicate n c) := by
    intro c n hc d hd hi
    have : ':' ∈ d.toList := by
      simp only [List.mem_cons, List.not_mem_nil, or_false] at hd
      rcases hd with rfl | rfl | rfl | rfl | rfl | rfl <;> decide
    have := hi.subset this
    rw [List.mem_replicate] at this
    exact hc (by simp [← this.2])
  rcases h with rfl | rfl | rfl | rfl
  · exact ⟨by decide +kernel, by decide, by decide, by decide, nd '-' 4 (by decide)⟩
  · exact ⟨by decide +kernel, by decide, by decide, by decide, nd '`' 3 (by decide)⟩
  · exact ⟨by decide +kernel, by decide, by decide, by decide, nd '.' 4 (by decide)⟩
  · exact ⟨by decide +kernel, by decide, by decide, by decide, nd '+' 4 (by decide)⟩

theorem closes_of {fence line : List Char} (h : Opens (encode fence) (encode line)) : Closes fence line := by
  rcases h with h | ⟨h1, h2, _⟩
  · exact .inl (encode_inj h)
  · have e : fence = "```".toList := encode_inj (by rw [h1]; decide +kernel)
    refine .inr ⟨e, ?_⟩
    obtain ⟨r, hr⟩ := h2
    refine enc_prefix (s := fence) (r := r) (by rw [e]; decide) ?_
    rw [← hr, enc_bs (by rw [e]; decide)]

theorem dropEmpty_map {α : Type} {f : List Tok → List α} : ∀ {C : List (List Tok)}, (∀ c ∈ C, c = [] ↔ f c = []) → (C.dropWhile (·.isEmpty)).map f = (C.map f).dropWhile (·.isEmpty) := by
  intro C
  induction C with
  | nil => intro _; rfl
  | cons c C ih =>
    intro h
    have hc := h c (by simp)
    rw [List.map_cons]
    by_cases e : c = []
    · rw [List.dropWhile_cons_of_pos (by simp [e]), List.dropWhile_cons_of_pos (by simpa using hc.1 e), ih (fun x hx => h x (by simp [hx]))]
    · rw [List.dropWhile_cons_of_neg (by simp [e]), List.dropWhile_cons_of_neg (by simpa using fun e' => e (hc.2 e')), List.map_cons]

theorem trim_map {C : List (List Tok)} (h : ∀ c ∈ C, c = [] ↔ lineText c = []) : (popEmpty (C.dropWhile (·.isEmpty))).map lineText = trim (C.map lineText) := by
  unfold popEmpty trim
  rw [List.map_reverse, dropEmpty_map, List.map_reverse, dropEmpty_map h]
  intro c hc
  exact h c ((List.dropWhile_sublist _).subset (List.mem_reverse.1 hc))

end Verif.Verbatim

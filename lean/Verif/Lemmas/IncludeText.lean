import Verif.Spec.IncludeText
import Std.Data.String.ToNat
namespace Verif.IncludeText

theorem splitNl_line (l : Bytes) (h : (10 : UInt8) ∉ l) : splitNl l = [l] := by
  induction l with
  | nil => rfl
  | cons b l ih =>
    simp only [List.mem_cons, not_or] at h
    simp [splitNl, Ne.symm h.1, ih h.2]

theorem splitNl_append (l rest : Bytes) (h : (10 : UInt8) ∉ l) : splitNl (l ++ 10 :: rest) = l :: splitNl rest := by
  induction l with
  | nil => simp [splitNl]
  | cons b l ih =>
    simp only [List.mem_cons, not_or] at h
    simp [splitNl, Ne.symm h.1, ih h.2]

theorem splitNl_joinNl (ls : List Bytes) (hne : ls ≠ []) (h : ∀ l ∈ ls, (10 : UInt8) ∉ l) :
    splitNl (joinNl ls) = ls := by
  induction ls with
  | nil => exact absurd rfl hne
  | cons l ls ih =>
    cases ls with
    | nil => exact splitNl_line l (h l (by simp))
    | cons m ms =>
      show splitNl (l ++ 10 :: joinNl (m :: ms)) = _
      rw [splitNl_append _ _ (h l (by simp)), ih (by simp) fun x hx => h x (by simp [hx])]

theorem splitParts_part (l : List Char) (h : ∀ c ∈ l, c ≠ ',' ∧ c ≠ ';') : splitParts l = [l] := by
  induction l with
  | nil => rfl
  | cons c l ih =>
    have := h c (by simp)
    simp [splitParts, this.1, this.2, ih fun d hd => h d (by simp [hd])]

theorem splitParts_append (l rest : List Char) (sep : Char) (hs : sep = ',' ∨ sep = ';')
    (h : ∀ c ∈ l, c ≠ ',' ∧ c ≠ ';') : splitParts (l ++ sep :: rest) = l :: splitParts rest := by
  induction l with
  | nil => simp [splitParts, hs]
  | cons c l ih =>
    have := h c (by simp)
    simp [splitParts, this.1, this.2, ih fun d hd => h d (by simp [hd])]

theorem dropWhile_ws_pad (i : Nat) (l : List Char) (h : l.head?.map isWs ≠ some true) :
    (List.replicate i ' ' ++ l).dropWhile isWs = l := by
  induction i with
  | zero =>
    cases l with
    | nil => rfl
    | cons c l =>
      have : isWs c = false := by simpa using h
      simp [this]
  | succ i ih =>
    rw [List.replicate_succ, List.cons_append, List.dropWhile_cons_of_pos (by decide)]
    exact ih

theorem trim_pad (i j : Nat) (l : List Char) (hne : l ≠ []) (h1 : l.head?.map isWs ≠ some true)
    (h2 : l.getLast?.map isWs ≠ some true) :
    trim (List.replicate i ' ' ++ l ++ List.replicate j ' ') = l := by
  unfold trim
  rw [List.append_assoc, dropWhile_ws_pad]
  · rw [List.reverse_append, List.reverse_replicate, dropWhile_ws_pad]
    · simp
    · rw [List.head?_reverse]; exact h2
  · cases l with
    | nil => exact absurd rfl hne
    | cons c l => simpa using h1

theorem trim_self (l : List Char) (h1 : l.head?.map isWs ≠ some true) (h2 : l.getLast?.map isWs ≠ some true) :
    trim l = l := by
  cases l with
  | nil => rfl
  | cons c l => simpa using trim_pad 0 0 (c :: l) (by simp) h1 h2

theorem digit_facts (n : Nat) (c : Char) (h : c ∈ Nat.toDigits 10 n) :
    c.isDigit = true ∧ isWs c = false ∧ c ≠ '.' ∧ c ≠ ',' ∧ c ≠ ';' ∧ c ≠ '+' := by
  have hd := Nat.isDigit_of_mem_toDigits (by decide) (by decide) h
  have key : ∀ d : Char, d.isDigit = false → c ≠ d := by
    intro d hf e; rw [e, hf] at hd; cases hd
  refine ⟨hd, ?_, key _ (by decide), key _ (by decide), key _ (by decide), key _ (by decide)⟩
  simp [isWs, key ' ' (by decide), key '\t' (by decide), key '\n' (by decide), key '\r' (by decide),
    key '\x0b' (by decide), key '\x0c' (by decide)]

theorem foldl_digits (l : List Char) (init : Nat) :
    l.foldl (fun n c => n * 10 + (c.toNat - 48)) init = Nat.ofDigitChars 10 l init := by
  rw [Nat.ofDigitChars_eq_foldl]
  congr 1; funext n c
  rw [Nat.mul_comm]; rfl

theorem parseUsize_digits (n : Nat) (h : n ≤ usizeMax) : parseUsize (Nat.toDigits 10 n) = some n := by
  have hne : Nat.toDigits 10 n ≠ [] := Nat.toDigits_ne_nil
  unfold parseUsize
  have hplus : stripPlus (Nat.toDigits 10 n) = Nat.toDigits 10 n := by
    cases hl : Nat.toDigits 10 n with
    | nil => exact absurd hl hne
    | cons c cs =>
      have := (digit_facts n c (by rw [hl]; simp)).2.2.2.2.2
      simp [stripPlus, this]
  simp only [hplus]
  rw [if_neg, foldl_digits, Nat.ofDigitChars_ten_toDigits, if_pos h]
  rintro (h' | h')
  · exact hne h'
  · simp only [List.any_eq_true, Bool.not_eq_eq_eq_not, Bool.not_true] at h'
    obtain ⟨c, hc, hf⟩ := h'
    rw [(digit_facts n c hc).1] at hf; cases hf

theorem splitDots_none (l : List Char) (h : '.' ∉ l) : splitDots l = none := by
  induction l with
  | nil => rfl
  | cons c l ih =>
    simp only [List.mem_cons, not_or] at h
    unfold splitDots
    split
    · rename_i heq; simp at heq; exact absurd heq.1.symm h.1
    · rename_i c' cs _ heq
      simp at heq
      obtain ⟨_, rfl⟩ := heq
      simp [ih h.2]
    · rfl

theorem splitDots_some (l rest : List Char) (h : '.' ∉ l) : splitDots (l ++ '.' :: '.' :: rest) = some (l, rest) := by
  induction l with
  | nil => rfl
  | cons c l ih =>
    simp only [List.mem_cons, not_or] at h
    rw [List.cons_append]
    unfold splitDots
    split
    · rename_i heq; simp at heq; exact absurd heq.1.symm h.1
    · rename_i c' cs _ heq
      simp at heq
      obtain ⟨rfl, rfl⟩ := heq
      simp [ih h.2]
    · rename_i heq; simp at heq

/-- the half open range a request becomes -/
def LineRange.bounds : LineRange → Nat × Nat
  | one n => (n, n + 1)
  | fromTo a b => (a, b + 1)
  | fromOn a => (a, usizeMax)
  | fromOn' a => (a, usizeMax)

theorem LineRange.bounds_has (r : LineRange) (k : Nat) (hk : k < usizeMax) :
    (decide (r.bounds.1 ≤ k) && decide (k < r.bounds.2)) = r.has k := by
  rw [Bool.eq_iff_iff, Bool.and_eq_true, decide_eq_true_eq, decide_eq_true_eq]
  cases r <;> simp only [bounds, has, decide_eq_true_eq] <;> omega

theorem LineRange.render_facts (r : LineRange) : r.render ≠ [] ∧ r.render.head?.map isWs ≠ some true ∧
    r.render.getLast?.map isWs ≠ some true ∧ ∀ c ∈ r.render, c ≠ ',' ∧ c ≠ ';' := by
  have hh : ∀ (n : Nat) (l : List Char), (Nat.toDigits 10 n ++ l).head?.map isWs ≠ some true := by
    intro n l
    have hne : Nat.toDigits 10 n ≠ [] := Nat.toDigits_ne_nil
    cases hl : Nat.toDigits 10 n with
    | nil => exact absurd hl hne
    | cons c cs => simp [(digit_facts n c (by rw [hl]; simp)).2.1]
  have hlast : ∀ n : Nat, (Nat.toDigits 10 n).getLast?.map isWs ≠ some true := by
    intro n
    have hne : Nat.toDigits 10 n ≠ [] := Nat.toDigits_ne_nil
    rw [List.getLast?_eq_some_getLast hne]
    have := (digit_facts n _ (List.getLast_mem hne)).2.1
    simp only [Option.map_some, this]; simp
  have hd : ∀ (n : Nat) c, c ∈ Nat.toDigits 10 n → c ≠ ',' ∧ c ≠ ';' := fun n c h =>
    ⟨(digit_facts n c h).2.2.2.1, (digit_facts n c h).2.2.2.2.1⟩
  have hne : ∀ n, Nat.toDigits 10 n ≠ [] := fun n => Nat.toDigits_ne_nil
  cases r with
  | one n =>
    refine ⟨hne n, ?_, hlast n, hd n⟩
    have := hh n []; rwa [List.append_nil] at this
  | fromTo a b =>
    refine ⟨by simp [render], hh a _, ?_, ?_⟩
    · have : (Nat.toDigits 10 a ++ '.' :: '.' :: Nat.toDigits 10 b).getLast? = (Nat.toDigits 10 b).getLast? := by
        rw [List.getLast?_append, List.getLast?_eq_some_getLast (hne b)]
        simp [List.getLast?_cons, List.getLast?_eq_some_getLast (hne b)]
      simp only [render, this]; exact hlast b
    · intro c hc
      simp only [render, List.mem_append, List.mem_cons] at hc
      rcases hc with hc | rfl | rfl | hc
      · exact hd a c hc
      · decide
      · decide
      · exact hd b c hc
  | fromOn a =>
    refine ⟨by simp [render], hh a _, by simp [render, List.getLast?_append]; decide, ?_⟩
    intro c hc
    simp only [render, List.mem_append, List.mem_cons, List.not_mem_nil, or_false] at hc
    rcases hc with hc | rfl | rfl
    · exact hd a c hc
    · decide
    · decide
  | fromOn' a =>
    refine ⟨by simp [render], hh a _, by simp [render, List.getLast?_append]; decide, ?_⟩
    intro c hc
    simp only [render, List.mem_append, List.mem_cons, List.not_mem_nil, or_false] at hc
    rcases hc with hc | rfl | rfl | rfl | rfl
    · exact hd a c hc
    all_goals decide

theorem parseRange_render (r : LineRange) (hv : r.Valid) (i j : Nat) :
    parseRange (List.replicate i ' ' ++ r.render ++ List.replicate j ' ') = some (some r.bounds) := by
  obtain ⟨f1, f2, f3, _⟩ := r.render_facts
  have hdot : ∀ n, '.' ∉ Nat.toDigits 10 n := fun n h => (digit_facts n _ h).2.2.1 rfl
  unfold parseRange
  rw [trim_pad i j _ f1 f2 f3]
  cases r with
  | one n =>
    simp only [LineRange.Valid] at hv
    simp only [LineRange.render, splitDots_none _ (hdot n), parseUsize_digits n (by omega), LineRange.bounds]
    rw [if_pos (by omega)]
  | fromTo a b =>
    simp only [LineRange.Valid] at hv
    simp only [LineRange.render, splitDots_some _ _ (hdot a), parseUsize_digits a (by omega),
      parseUsize_digits b (by omega), LineRange.bounds]
    rw [if_neg, if_pos hv.1, if_pos (by omega)]
    rintro (h | h)
    · have hm : '-' ∈ Nat.toDigits 10 b := by rw [h]; simp
      have := (digit_facts b _ hm).1
      revert this; decide
    · exact Nat.toDigits_ne_nil h
  | fromOn a =>
    simp only [LineRange.Valid] at hv
    simp only [LineRange.render]
    rw [show Nat.toDigits 10 a ++ ['.', '.'] = Nat.toDigits 10 a ++ '.' :: '.' :: [] from rfl,
      splitDots_some _ _ (hdot a)]
    simp only [parseUsize_digits a (by omega), LineRange.bounds]
    rw [if_pos (by simp)]
  | fromOn' a =>
    simp only [LineRange.Valid] at hv
    simp only [LineRange.render]
    rw [show Nat.toDigits 10 a ++ ['.', '.', '-', '1'] = Nat.toDigits 10 a ++ '.' :: '.' :: ['-', '1'] from rfl,
      splitDots_some _ _ (hdot a)]
    simp only [parseUsize_digits a (by omega), LineRange.bounds]
    rw [if_pos (by simp)]

theorem padded_no_sep (r : LineRange) (i j : Nat) :
    ∀ c ∈ List.replicate i ' ' ++ r.render ++ List.replicate j ' ', c ≠ ',' ∧ c ≠ ';' := by
  intro c hc
  simp only [List.mem_append, List.mem_replicate] at hc
  rcases hc with (⟨_, rfl⟩ | hc) | ⟨_, rfl⟩
  · decide
  · exact r.render_facts.2.2.2 c hc
  · decide

theorem splitParts_renderRanges (ps : List (Char × Nat × LineRange × Nat)) (hne : ps ≠ [])
    (hsep : ∀ p ∈ ps, p.1 = ',' ∨ p.1 = ';') :
    splitParts (renderRanges ps).tail =
      ps.map fun p => List.replicate p.2.1 ' ' ++ p.2.2.1.render ++ List.replicate p.2.2.2 ' ' := by
  induction ps with
  | nil => exact absurd rfl hne
  | cons p ps ih =>
    obtain ⟨sep, i, r, j⟩ := p
    cases ps with
    | nil =>
      simp only [renderRanges, List.tail_cons, List.append_nil, List.map_cons, List.map_nil]
      exact splitParts_part _ (padded_no_sep r i j)
    | cons q qs =>
      have ih' := ih (by simp) fun p hp => hsep p (by simp [hp])
      obtain ⟨sep', i', r', j'⟩ := q
      have hq := hsep (sep', i', r', j') (by simp)
      simp only [renderRanges, List.tail_cons, List.map_cons] at ih' ⊢
      rw [splitParts_append _ _ sep' hq (padded_no_sep r i j), ih']

theorem parseLineRanges_render (ps : List (Char × Nat × LineRange × Nat)) (hne : ps ≠ [])
    (hsep : ∀ p ∈ ps, p.1 = ',' ∨ p.1 = ';') (hv : ∀ p ∈ ps, p.2.2.1.Valid) :
    parseLineRanges (renderRanges ps).tail = some (ps.map fun p => p.2.2.1.bounds) := by
  unfold parseLineRanges
  rw [splitParts_renderRanges ps hne hsep]
  have : ∀ qs : List (Char × Nat × LineRange × Nat), (∀ p ∈ qs, p.2.2.1.Valid) →
      (qs.map fun p => List.replicate p.2.1 ' ' ++ p.2.2.1.render ++ List.replicate p.2.2.2 ' ').mapM parseRange =
        some (qs.map fun p => some p.2.2.1.bounds) := by
    intro qs hq
    induction qs with
    | nil => rfl
    | cons q qs ih =>
      simp only [List.map_cons, List.mapM_cons, parseRange_render _ (hq q (by simp)),
        ih fun p hp => hq p (by simp [hp])]
      rfl
  rw [this ps hv]
  simp [List.filterMap_map, Function.comp_def]

end Verif.IncludeText

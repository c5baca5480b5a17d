import Verif.Model.Regex
/-! Lemmas: regular expressions. -/
namespace Verif.Regex

/-- `n` characters further -/
def adv (n : Nat) (st : St) : St := ⟨(st.rest.take n).reverse ++ st.before, st.rest.drop n, st.caps⟩

@[simp] theorem adv_zero (st : St) : adv 0 st = st := by simp [adv]

theorem adv_adv (n m : Nat) (st : St) : adv m (adv n st) = adv (n + m) st := by
  have : (st.rest.take (n + m)) = st.rest.take n ++ (st.rest.drop n).take m := List.take_add
  simp [adv, this, List.drop_drop]

theorem adv_append (a b bf : List Char) (cs : List (Nat × List Char)) : adv a.length ⟨bf, a ++ b, cs⟩ = ⟨a.reverse ++ bf, b, cs⟩ := by
  simp [adv]

/-- `m + d` characters, or one less, and so on down to `m` -/
def downTo (k : St → Option St) (st : St) (m : Nat) : Nat → Option St
  | 0 => k (adv m st)
  | d + 1 => (k (adv (m + (d + 1)) st)).or (downTo k st m d)

/-- `m` characters, or one more, and so on up to `m + d` -/
def upFrom (k : St → Option St) (st : St) : Nat → Nat → Option St
  | m, 0 => k (adv m st)
  | m, d + 1 => (k (adv m st)).or (upFrom k st (m + 1) d)

/-- how many characters of the class stand next -/
def spanLen (p : Char → Bool) (l : List Char) : Nat := (l.takeWhile p).length

theorem spanLen_le (p : Char → Bool) (l : List Char) : spanLen p l ≤ l.length := by
  unfold spanLen
  induction l with
  | nil => simp
  | cons c l ih => rw [List.takeWhile_cons]; split <;> simp <;> omega

theorem spanLen_append {p : Char → Bool} {a b : List Char} (ha : ∀ c ∈ a, p c = true) (hb : ∀ c ∈ b.head?, p c = false) : spanLen p (a ++ b) = a.length := by
  unfold spanLen
  induction a with
  | nil =>
    cases b with
    | nil => rfl
    | cons x xs => simp [hb x (by simp)]
  | cons x xs ih =>
    rw [List.cons_append, List.takeWhile_cons, if_pos (ha x (by simp)), List.length_cons, List.length_cons, ih (fun c hc => ha c (by simp [hc]))]

theorem downTo_first {k : St → Option St} {st r : St} {m d : Nat} (h : k (adv (m + d) st) = some r) : downTo k st m d = some r := by
  cases d with
  | zero => exact h
  | succ d => rw [downTo, h]; rfl

theorem downTo_none {k : St → Option St} {st : St} {m d : Nat} (h : ∀ i, i ≤ d → k (adv (m + i) st) = none) : downTo k st m d = none := by
  induction d with
  | zero => exact h 0 (by omega)
  | succ d ih =>
    rw [downTo, h (d + 1) (by omega), ih (fun i hi => h i (by omega))]; rfl

theorem downTo_skip {k : St → Option St} {st r : St} {m d j : Nat} (hj : j ≤ d) (h : ∀ i, j < i → i ≤ d → k (adv (m + i) st) = none) (hr : k (adv (m + j) st) = some r) :
    downTo k st m d = some r := by
  induction d with
  | zero =>
    have : j = 0 := by omega
    subst this
    exact hr
  | succ d ih =>
    by_cases e : j = d + 1
    · subst e; exact downTo_first hr
    · rw [downTo, h (d + 1) (by omega) (by omega), ih (by omega) (fun i h1 h2 => h i h1 (by omega))]; rfl

theorem upFrom_first {k : St → Option St} {st r : St} {m d : Nat} (h : k (adv m st) = some r) : upFrom k st m d = some r := by
  cases d with
  | zero => exact h
  | succ d => rw [upFrom, h]; rfl

theorem upFrom_skip {k : St → Option St} {st r : St} {m d j : Nat} (hj : j ≤ d) (h : ∀ i, i < j → k (adv (m + i) st) = none) (hr : k (adv (m + j) st) = some r) :
    upFrom k st m d = some r := by
  induction d generalizing m j with
  | zero =>
    have : j = 0 := by omega
    subst this
    exact hr
  | succ d ih =>
    cases j with
    | zero => exact upFrom_first hr
    | succ j =>
      have h0 := h 0 (by omega)
      rw [upFrom, show adv m st = adv (m + 0) st from rfl, h0, Option.none_or]
      refine ih (j := j) (by omega) (fun i hi => ?_) ?_
      · rw [show m + 1 + i = m + (i + 1) by omega]; exact h (i + 1) (by omega)
      · rw [show m + 1 + j = m + (j + 1) by omega]; exact hr

theorem upFrom_none {k : St → Option St} {st : St} {m d : Nat} (h : ∀ i, i ≤ d → k (adv (m + i) st) = none) : upFrom k st m d = none := by
  induction d generalizing m with
  | zero => exact h 0 (by omega)
  | succ d ih =>
    rw [upFrom, show adv m st = adv (m + 0) st from rfl, h 0 (by omega), Option.none_or]
    refine ih (fun i hi => ?_)
    rw [show m + 1 + i = m + (i + 1) by omega]; exact h (i + 1) (by omega)

variable {word : Char → Bool}

theorem run_set_cons (p : Char → Bool) (bf : List Char) (c : Char) (cs : List Char) (cp : List (Nat × List Char)) (k : St → Option St) :
    run word (.set p) ⟨bf, c :: cs, cp⟩ k = if p c then k ⟨c :: bf, cs, cp⟩ else none := by
  simp [run]

theorem run_set_nil (p : Char → Bool) (bf : List Char) (cp : List (Nat × List Char)) (k : St → Option St) : run word (.set p) ⟨bf, [], cp⟩ k = none := by
  simp [run]

theorem downTo_shift (k : St → Option St) (bf : List Char) (c : Char) (cs : List Char) (cp : List (Nat × List Char)) (m d : Nat) :
    downTo k ⟨c :: bf, cs, cp⟩ m d = downTo k ⟨bf, c :: cs, cp⟩ (m + 1) d := by
  have e : ∀ n, adv n ⟨c :: bf, cs, cp⟩ = adv (n + 1) ⟨bf, c :: cs, cp⟩ := by intro n; simp [adv]
  induction d with
  | zero => simp [downTo, e]
  | succ d ih => rw [downTo, downTo, ih, e, show m + (d + 1) + 1 = m + 1 + (d + 1) by omega]

theorem upFrom_shift (k : St → Option St) (bf : List Char) (c : Char) (cs : List Char) (cp : List (Nat × List Char)) (m d : Nat) :
    upFrom k ⟨c :: bf, cs, cp⟩ m d = upFrom k ⟨bf, c :: cs, cp⟩ (m + 1) d := by
  have e : ∀ n, adv n ⟨c :: bf, cs, cp⟩ = adv (n + 1) ⟨bf, c :: cs, cp⟩ := by intro n; simp [adv]
  induction d generalizing m with
  | zero => simp [upFrom, e]
  | succ d ih => rw [upFrom, upFrom, ih, e]

theorem downTo_last (k : St → Option St) (st : St) (m d : Nat) : downTo k st m (d + 1) = (downTo k st (m + 1) d).or (k (adv m st)) := by
  induction d with
  | zero => rfl
  | succ d ih =>
    rw [downTo, ih, downTo, Option.or_assoc, show m + (d + 1 + 1) = m + 1 + (d + 1) by omega]

theorem loop_set_greedy (p : Char → Bool) (k : St → Option St) : ∀ (l : List Char) (n : Nat) (bf : List Char) (cp : List (Nat × List Char)), l.length ≤ n →
    loop (run word (.set p)) true k n ⟨bf, l, cp⟩ = downTo k ⟨bf, l, cp⟩ 0 (spanLen p l) := by
  intro l
  induction l with
  | nil =>
    intro n bf cp h
    cases n with
    | zero => simp [loop, spanLen, downTo]
    | succ n => simp [loop, spanLen, downTo, run_set_nil]
  | cons c cs ih =>
    intro n bf cp h
    cases n with
    | zero => simp at h
    | succ n =>
      rw [loop]
      simp only [if_true, run_set_cons]
      by_cases hp : p c = true
      · have hs : spanLen p (c :: cs) = spanLen p cs + 1 := by simp [spanLen, hp]
        rw [if_pos hp, hs, downTo_last, ← downTo_shift]
        simp only [List.length_cons, Nat.lt_add_one, if_true]
        rw [ih n _ _ (by simpa using h)]
        simp
      · have hs : spanLen p (c :: cs) = 0 := by simp [spanLen, hp]
        rw [if_neg hp, hs]
        simp [downTo]

theorem loop_set_lazy (p : Char → Bool) (k : St → Option St) : ∀ (l : List Char) (n : Nat) (bf : List Char) (cp : List (Nat × List Char)), l.length ≤ n →
    loop (run word (.set p)) false k n ⟨bf, l, cp⟩ = upFrom k ⟨bf, l, cp⟩ 0 (spanLen p l) := by
  intro l
  induction l with
  | nil =>
    intro n bf cp h
    cases n with
    | zero => simp [loop, spanLen, upFrom]
    | succ n => simp [loop, spanLen, upFrom, run_set_nil]
  | cons c cs ih =>
    intro n bf cp h
    cases n with
    | zero => simp at h
    | succ n =>
      rw [loop]
      simp only [Bool.false_eq_true, if_false, run_set_cons]
      by_cases hp : p c = true
      · have hs : spanLen p (c :: cs) = spanLen p cs + 1 := by simp [spanLen, hp]
        rw [if_pos hp, hs, upFrom, ← upFrom_shift]
        simp only [List.length_cons, Nat.lt_add_one, if_true]
        rw [ih n _ _ (by simpa using h)]
        simp
      · have hs : spanLen p (c :: cs) = 0 := by simp [spanLen, hp]
        rw [if_neg hp, hs]
        simp [upFrom]

/-- a greedy repetition of a class tries the longest text first -/
theorem run_star (p : Char → Bool) (st : St) (k : St → Option St) : run word (.star true (.set p)) st k = downTo k st 0 (spanLen p st.rest) := by
  obtain ⟨bf, l, cp⟩ := st
  rw [run]; exact loop_set_greedy p k l _ bf cp (Nat.le_refl _)

theorem run_star_lazy (p : Char → Bool) (st : St) (k : St → Option St) : run word (.star false (.set p)) st k = upFrom k st 0 (spanLen p st.rest) := by
  obtain ⟨bf, l, cp⟩ := st
  rw [run]; exact loop_set_lazy p k l _ bf cp (Nat.le_refl _)

theorem run_plus (p : Char → Bool) (st : St) (k : St → Option St) :
    run word (.plus (.set p)) st k = match spanLen p st.rest with | 0 => none | d + 1 => downTo k st 1 d := by
  obtain ⟨bf, l, cp⟩ := st
  rw [Re.plus, run]
  cases l with
  | nil => rw [run_set_nil]; rfl
  | cons c cs =>
    rw [run_set_cons]
    by_cases hp : p c = true
    · have hs : spanLen p (c :: cs) = spanLen p cs + 1 := by simp [spanLen, hp]
      rw [if_pos hp, run_star, downTo_shift]
      simp only [hs]
    · have hs : spanLen p (c :: cs) = 0 := by simp [spanLen, hp]
      rw [if_neg hp]
      simp only [hs]

theorem run_plusLazy (p : Char → Bool) (st : St) (k : St → Option St) :
    run word (.plusLazy (.set p)) st k = match spanLen p st.rest with | 0 => none | d + 1 => upFrom k st 1 d := by
  obtain ⟨bf, l, cp⟩ := st
  rw [Re.plusLazy, run]
  cases l with
  | nil => rw [run_set_nil]; rfl
  | cons c cs =>
    rw [run_set_cons]
    by_cases hp : p c = true
    · have hs : spanLen p (c :: cs) = spanLen p cs + 1 := by simp [spanLen, hp]
      rw [if_pos hp, run_star_lazy, upFrom_shift]
      simp only [hs]
    · have hs : spanLen p (c :: cs) = 0 := by simp [spanLen, hp]
      rw [if_neg hp]
      simp only [hs]

/-- a text of the class that is followed by something else is read as a whole when what comes after it matches -/
theorem star_all {p : Char → Bool} {a b bf : List Char} {cp : List (Nat × List Char)} {k : St → Option St} {r : St} (ha : ∀ c ∈ a, p c = true) (hb : ∀ c ∈ b.head?, p c = false)
    (hk : k ⟨a.reverse ++ bf, b, cp⟩ = some r) : run word (.star true (.set p)) ⟨bf, a ++ b, cp⟩ k = some r := by
  rw [run_star]
  simp only [spanLen_append ha hb]
  exact downTo_first (by rw [Nat.zero_add, adv_append]; exact hk)

theorem plus_all {p : Char → Bool} {a b bf : List Char} {cp : List (Nat × List Char)} {k : St → Option St} {r : St} (hne : a ≠ []) (ha : ∀ c ∈ a, p c = true)
    (hb : ∀ c ∈ b.head?, p c = false) (hk : k ⟨a.reverse ++ bf, b, cp⟩ = some r) : run word (.plus (.set p)) ⟨bf, a ++ b, cp⟩ k = some r := by
  rw [run_plus]
  simp only [spanLen_append ha hb]
  cases a with
  | nil => exact absurd rfl hne
  | cons x xs =>
    simp only [List.length_cons]
    refine downTo_first ?_
    rw [show 1 + xs.length = (x :: xs).length by simp; omega, adv_append]
    exact hk

theorem run_ch (c : Char) (bf l : List Char) (cp : List (Nat × List Char)) (k : St → Option St) : run word (.ch c) ⟨bf, c :: l, cp⟩ k = k ⟨c :: bf, l, cp⟩ := by
  simp [Re.ch, run_set_cons]

theorem run_ch_none {c : Char} {bf l : List Char} {cp : List (Nat × List Char)} {k : St → Option St} (h : l.head? ≠ some c) : run word (.ch c) ⟨bf, l, cp⟩ k = none := by
  cases l with
  | nil => exact run_set_nil _ _ _ _
  | cons x xs =>
    rw [Re.ch, run_set_cons, if_neg]
    simp at h ⊢
    exact h

theorem run_set_none {p : Char → Bool} {bf l : List Char} {cp : List (Nat × List Char)} {k : St → Option St} (h : ∀ c ∈ l.head?, p c = false) : run word (.set p) ⟨bf, l, cp⟩ k = none := by
  cases l with
  | nil => exact run_set_nil _ _ _ _
  | cons x xs =>
    rw [run_set_cons, if_neg]
    simp [h x (by simp)]

theorem plus_none {p : Char → Bool} {bf l : List Char} {cp : List (Nat × List Char)} {k : St → Option St} (h : ∀ c ∈ l.head?, p c = false) :
    run word (.plus (.set p)) ⟨bf, l, cp⟩ k = none := by
  rw [Re.plus, run, run_set_none h]

theorem opt_some {a : Re} {st r : St} {k : St → Option St} (h : run word a st k = some r) : run word (.opt a) st k = some r := by
  rw [Re.opt, run, h]; rfl

theorem opt_none {a : Re} {st : St} {k : St → Option St} (h : run word a st k = none) : run word (.opt a) st k = k st := by
  rw [Re.opt, run, h, run]; rfl

theorem downTo_some {k : St → Option St} {st r : St} {m d : Nat} (h : downTo k st m d = some r) : ∃ i, i ≤ d ∧ k (adv (m + i) st) = some r := by
  induction d with
  | zero => exact ⟨0, by omega, h⟩
  | succ d ih =>
    rw [downTo] at h
    cases hk : k (adv (m + (d + 1)) st) with
    | some x =>
      rw [hk] at h
      exact ⟨d + 1, by omega, by rw [hk]; exact h⟩
    | none =>
      rw [hk, Option.none_or] at h
      obtain ⟨i, hi, e⟩ := ih h
      exact ⟨i, by omega, e⟩

/-- what a match reads: a non-empty text of the class -/
theorem plus_some {p : Char → Bool} {st r : St} {k : St → Option St} (h : run word (.plus (.set p)) st k = some r) :
    ∃ a b, st.rest = a ++ b ∧ a ≠ [] ∧ (∀ c ∈ a, p c = true) ∧ k ⟨a.reverse ++ st.before, b, st.caps⟩ = some r := by
  rw [run_plus] at h
  split at h
  · cases h
  · rename_i d hd
    obtain ⟨i, hi, e⟩ := downTo_some h
    have hle : 1 + i ≤ (st.rest.takeWhile p).length := by rw [spanLen] at hd; omega
    have hall : ∀ (l : List Char), ∀ c ∈ l.takeWhile p, p c = true := by
      intro l
      induction l with
      | nil => simp
      | cons x xs ih =>
        intro c hc
        rw [List.takeWhile_cons] at hc
        split at hc
        · rcases List.mem_cons.1 hc with h | h
          · subst h; assumption
          · exact ih c h
        · simp at hc
    have htk : st.rest.take (1 + i) = (st.rest.takeWhile p).take (1 + i) := by
      obtain ⟨t, ht⟩ : st.rest.takeWhile p <+: st.rest := List.takeWhile_prefix p
      rw [← List.take_append_of_le_length hle (l₂ := t), ht]
    refine ⟨st.rest.take (1 + i), st.rest.drop (1 + i), (List.take_append_drop _ _).symm, ?_, ?_, e⟩
    · rw [htk]
      intro h0
      have := congrArg List.length h0
      rw [List.length_take, List.length_nil] at this
      omega
    · intro c hc
      rw [htk] at hc
      exact hall _ c (List.mem_of_mem_take hc)

/-- the capture groups -/
def groups : Re → List Nat
  | .seq a b => groups a ++ groups b
  | .alt a b => groups a ++ groups b
  | .star _ a => groups a
  | .cap n a => n :: groups a
  | _ => []

/-- a match changes no captures but those of its groups -/
theorem run_keep (n : Nat) : ∀ (r : Re), n ∉ groups r → ∀ (st x : St) (k : St → Option St), run word r st k = some x → ∃ s, s.caps.lookup n = st.caps.lookup n ∧ k s = some x := by
  intro r
  induction r with
  | set p =>
    intro _ st x k h
    obtain ⟨bf, l, cp⟩ := st
    cases l with
    | nil => rw [run_set_nil] at h; cases h
    | cons c cs =>
      rw [run_set_cons] at h
      split at h
      · exact ⟨⟨c :: bf, cs, cp⟩, rfl, h⟩
      · cases h
  | eps => intro _ st x k h; exact ⟨st, rfl, h⟩
  | seq a b iha ihb =>
    intro hn st x k h
    simp only [groups, List.mem_append, not_or] at hn
    rw [run] at h
    obtain ⟨s, h1, h2⟩ := iha hn.1 _ _ _ h
    obtain ⟨s', h3, h4⟩ := ihb hn.2 _ _ _ h2
    exact ⟨s', h3.trans h1, h4⟩
  | alt a b iha ihb =>
    intro hn st x k h
    simp only [groups, List.mem_append, not_or] at hn
    rw [run] at h
    rcases Option.or_eq_some_iff.1 h with h | h
    · exact iha hn.1 _ _ _ h
    · exact ihb hn.2 _ _ _ h.2
  | star g a ih =>
    intro hn st x k h
    rw [run] at h
    have : ∀ m (st : St), loop (run word a) g k m st = some x → ∃ s, s.caps.lookup n = st.caps.lookup n ∧ k s = some x := by
      intro m
      induction m with
      | zero => intro st h; exact ⟨st, rfl, h⟩
      | succ m ihn =>
        intro st h
        have hag : (run word a st fun s => if s.rest.length < st.rest.length then loop (run word a) g k m s else none) = some x →
            ∃ s, s.caps.lookup n = st.caps.lookup n ∧ k s = some x := by
          intro hy
          obtain ⟨s, h1, h2⟩ := ih hn _ _ _ hy
          split at h2
          · obtain ⟨s', h3, h4⟩ := ihn s h2
            exact ⟨s', h3.trans h1, h4⟩
          · cases h2
        rw [loop] at h
        simp only at h
        split at h
        · rcases Option.or_eq_some_iff.1 h with h | h
          · exact hag h
          · exact ⟨st, rfl, h.2⟩
        · rcases Option.or_eq_some_iff.1 h with h | h
          · exact ⟨st, rfl, h⟩
          · exact hag h.2
    exact this _ _ h
  | cap m a ih =>
    intro hn st x k h
    simp only [groups, List.mem_cons, not_or] at hn
    rw [run] at h
    obtain ⟨s, h1, h2⟩ := ih hn.2 _ _ _ h
    refine ⟨{ s with caps := (m, st.rest.take (st.rest.length - s.rest.length)) :: s.caps }, ?_, h2⟩
    have : (n == m) = false := by simpa using hn.1
    simp only [List.lookup_cons, this]
    exact h1
  | bol =>
    intro _ st x k h
    rw [run] at h
    split at h
    · exact ⟨st, rfl, h⟩
    · cases h
  | eol =>
    intro _ st x k h
    rw [run] at h
    split at h
    · exact ⟨st, rfl, h⟩
    · cases h
  | wordB =>
    intro _ st x k h
    rw [run] at h
    split at h
    · exact ⟨st, rfl, h⟩
    · cases h

/-- a match is a match at some position -/
theorem search_some {r : Re} : ∀ (l bf : List Char) (n : Nat) (m : Match), search word r n bf l = some m → ∃ bf' l', run word r ⟨bf', l', []⟩ some = some m.stop := by
  intro l
  induction l with
  | nil =>
    intro bf n m h
    rw [search] at h
    obtain ⟨s, hs, rfl⟩ := Option.map_eq_some_iff.1 h
    exact ⟨_, _, hs⟩
  | cons c cs ih =>
    intro bf n m h
    rw [search] at h
    split at h
    · cases h; exact ⟨_, _, ‹_›⟩
    · exact ih _ _ _ h

theorem iter_some {r : Re} : ∀ (n : Nat) (bf l : List Char), ∀ m ∈ capturesIter word r n bf l, ∃ bf' l', run word r ⟨bf', l', []⟩ some = some m.stop := by
  intro n
  induction n with
  | zero => intro bf l m h; simp [capturesIter] at h
  | succ n ih =>
    intro bf l m h
    rw [capturesIter] at h
    split at h
    · simp at h
    · rcases List.mem_cons.1 h with h | h
      · subst h; exact search_some _ _ _ _ ‹_›
      · exact ih _ _ _ h

end Verif.Regex

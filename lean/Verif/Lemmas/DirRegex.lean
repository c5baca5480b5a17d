import Verif.Model.DirRegex
import Verif.Lemmas.Regex
/-! Lemmas: the regular expressions for directives. -/
namespace Verif.Regex
variable {word : Char → Bool}

theorem search_bol {r : Re} : ∀ (l bf : List Char) (n : Nat), bf ≠ [] → search word (.seq .bol r) n bf l = none := by
  intro l
  induction l with
  | nil => intro bf n h; rw [search, run, run, if_neg h]; rfl
  | cons c cs ih =>
    intro bf n h
    rw [search, run, run, if_neg h]
    exact ih _ _ (by simp)

/-- an anchored expression matches at the start or nowhere -/
theorem captures_bol (r : Re) (l : List Char) : captures word (.seq .bol r) l = (run word r ⟨[], l, []⟩ some).map (⟨0, ·⟩) := by
  rw [captures]
  cases l with
  | nil => rw [search, run, run, if_pos rfl]
  | cons c cs =>
    rw [search, run, run, if_pos rfl]
    cases run word r ⟨[], c :: cs, []⟩ some with
    | some s => rfl
    | none => exact search_bol _ _ _ (by simp)

theorem takeWhile_mem {p : Char → Bool} : ∀ (l : List Char), ∀ c ∈ l.takeWhile p, p c = true := by
  intro l
  induction l with
  | nil => simp
  | cons x xs ih =>
    intro c hc
    rw [List.takeWhile_cons] at hc
    split at hc
    · rcases List.mem_cons.1 hc with h | h
      · subst h; assumption
      · exact ih c h
    · simp at hc

theorem take_span {p : Char → Bool} {l : List Char} {n : Nat} (h : n ≤ spanLen p l) : ∀ c ∈ l.take n, p c = true := by
  intro c hc
  have : l.take n = (l.takeWhile p).take n := by
    obtain ⟨t, ht⟩ : l.takeWhile p <+: l := List.takeWhile_prefix p
    rw [← List.take_append_of_le_length h (l₂ := t), ht]
  rw [this] at hc
  exact takeWhile_mem l c (List.mem_of_mem_take hc)

theorem star_some {p : Char → Bool} {st r : St} {k : St → Option St} (h : run word (.star true (.set p)) st k = some r) :
    ∃ a b, st.rest = a ++ b ∧ (∀ c ∈ a, p c = true) ∧ k ⟨a.reverse ++ st.before, b, st.caps⟩ = some r := by
  rw [run_star] at h
  obtain ⟨i, hi, e⟩ := downTo_some h
  rw [Nat.zero_add] at e
  exact ⟨st.rest.take i, st.rest.drop i, (List.take_append_drop _ _).symm, take_span hi, e⟩

theorem upFrom_some {k : St → Option St} {st r : St} {m d : Nat} (h : upFrom k st m d = some r) : ∃ i, i ≤ d ∧ k (adv (m + i) st) = some r := by
  induction d generalizing m with
  | zero => exact ⟨0, by omega, h⟩
  | succ d ih =>
    rw [upFrom] at h
    rcases Option.or_eq_some_iff.1 h with h | h
    · exact ⟨0, by omega, h⟩
    · obtain ⟨i, hi, e⟩ := ih h.2
      exact ⟨i + 1, by omega, by rw [show m + (i + 1) = m + 1 + i by omega]; exact e⟩

theorem starLazy_some {p : Char → Bool} {st r : St} {k : St → Option St} (h : run word (.star false (.set p)) st k = some r) :
    ∃ a b, st.rest = a ++ b ∧ (∀ c ∈ a, p c = true) ∧ k ⟨a.reverse ++ st.before, b, st.caps⟩ = some r := by
  rw [run_star_lazy] at h
  obtain ⟨i, hi, e⟩ := upFrom_some h
  rw [Nat.zero_add] at e
  exact ⟨st.rest.take i, st.rest.drop i, (List.take_append_drop _ _).symm, take_span hi, e⟩

theorem plusLazy_some {p : Char → Bool} {st r : St} {k : St → Option St} (h : run word (.plusLazy (.set p)) st k = some r) :
    ∃ a b, st.rest = a ++ b ∧ a ≠ [] ∧ (∀ c ∈ a, p c = true) ∧ k ⟨a.reverse ++ st.before, b, st.caps⟩ = some r := by
  rw [run_plusLazy] at h
  split at h
  · cases h
  · rename_i d hd
    obtain ⟨i, hi, e⟩ := upFrom_some h
    refine ⟨st.rest.take (1 + i), st.rest.drop (1 + i), (List.take_append_drop _ _).symm, ?_, take_span (by omega), e⟩
    intro h0
    have h1 := congrArg List.length h0
    have h2 := spanLen_le p st.rest
    rw [List.length_take, List.length_nil] at h1
    omega

theorem set_some {p : Char → Bool} {st r : St} {k : St → Option St} (h : run word (.set p) st k = some r) :
    ∃ c cs, st.rest = c :: cs ∧ p c = true ∧ k ⟨c :: st.before, cs, st.caps⟩ = some r := by
  obtain ⟨bf, l, cp⟩ := st
  cases l with
  | nil => rw [run_set_nil] at h; cases h
  | cons c cs =>
    rw [run_set_cons] at h
    split at h
    · exact ⟨c, cs, rfl, ‹_›, h⟩
    · cases h

theorem ch_some {x : Char} {st r : St} {k : St → Option St} (h : run word (.ch x) st k = some r) :
    ∃ cs, st.rest = x :: cs ∧ k ⟨x :: st.before, cs, st.caps⟩ = some r := by
  obtain ⟨c, cs, h1, h2, h3⟩ := set_some h
  have : c = x := by simpa using h2
  subst this
  exact ⟨cs, h1, h3⟩

theorem eol_some {st r : St} {k : St → Option St} (h : run word .eol st k = some r) : st.rest = [] ∧ k st = some r := by
  rw [run] at h
  split at h
  · exact ⟨‹_›, h⟩
  · cases h

end Verif.Regex

namespace Verif.Directives
open Verif.Regex
variable {word : Char → Bool}

theorem lit_run (s : String) (bf r : List Char) (cs : List (Nat × List Char)) (k : St → Option St) :
    run word (litRe s) ⟨bf, s.toList ++ r, cs⟩ k = k ⟨s.toList.reverse ++ bf, r, cs⟩ := by
  rw [litRe]
  generalize s.toList = s
  induction s generalizing bf with
  | nil => rfl
  | cons c s ih => rw [List.foldr, run, List.cons_append, run_ch, ih]; simp

theorem lit_some {s : String} {st r : St} {k : St → Option St} (h : run word (litRe s) st k = some r) :
    ∃ cs, st.rest = s.toList ++ cs ∧ k ⟨s.toList.reverse ++ st.before, cs, st.caps⟩ = some r := by
  rw [litRe] at h
  generalize s.toList = s at h ⊢
  induction s generalizing st with
  | nil => exact ⟨st.rest, rfl, h⟩
  | cons c s ih =>
    rw [List.foldr, run] at h
    obtain ⟨cs, h1, h2⟩ := ch_some h
    obtain ⟨cs', h3, h4⟩ := ih h2
    simp only at h3
    refine ⟨cs', by rw [h1, h3]; rfl, ?_⟩
    simpa using h4

theorem dot_iff {c : Char} : (decide (c ≠ '\n')) = true ↔ c ≠ '\n' := by simp

/-- a text up to the bracket at the end -/
theorem star_dot_close {a bf : List Char} {cp : List (Nat × List Char)} {k : St → Option St} {x : St} (ha : '\n' ∉ a)
    (h0 : k ⟨(a ++ [']']).reverse ++ bf, [], cp⟩ = none) (h1 : k ⟨a.reverse ++ bf, [']'], cp⟩ = some x) :
    run word (.star true dot) ⟨bf, a ++ [']'], cp⟩ k = some x := by
  rw [dot, run_star]
  have hs : spanLen (fun c => decide (c ≠ '\n')) (a ++ [']']) = (a ++ [']']).length := by
    have := spanLen_append (p := fun c => decide (c ≠ '\n')) (a := a ++ [']']) (b := []) (by
      intro c hc
      rw [dot_iff]
      rintro rfl
      simp at hc
      exact ha hc) (by simp)
    simpa using this
  rw [hs]
  refine downTo_skip (j := a.length) (by simp) ?_ ?_
  · intro i h2 h3
    have hi : i = (a ++ [']']).length := by simp at h3 ⊢; omega
    have := adv_append (a ++ [']']) [] bf cp
    rw [List.append_nil] at this
    rw [Nat.zero_add, hi, this]
    exact h0
  · rw [Nat.zero_add, adv_append]; exact h1

theorem plus_dot_close {a bf : List Char} {cp : List (Nat × List Char)} {k : St → Option St} {x : St} (hne : a ≠ []) (ha : '\n' ∉ a)
    (h0 : k ⟨(a ++ [']']).reverse ++ bf, [], cp⟩ = none) (h1 : k ⟨a.reverse ++ bf, [']'], cp⟩ = some x) :
    run word (.plus dot) ⟨bf, a ++ [']'], cp⟩ k = some x := by
  cases a with
  | nil => exact absurd rfl hne
  | cons c a =>
    simp only [List.mem_cons, not_or] at ha
    rw [Re.plus, run, dot, List.cons_append, run_set_cons, if_pos (by simpa using fun e : c = '\n' => ha.1 e.symm)]
    exact star_dot_close ha.2 (by simpa using h0) (by simpa using h1)

theorem close_none {bf : List Char} {cp : List (Nat × List Char)} {k : St → Option St} : run word (.seq (.ch ']') .eol) ⟨bf, [], cp⟩ k = none := by
  rw [run, run_ch_none (by simp)]

theorem close_some {bf : List Char} {cp : List (Nat × List Char)} {k : St → Option St} : run word (.seq (.ch ']') .eol) ⟨bf, [']'], cp⟩ k = k ⟨']' :: bf, [], cp⟩ := by
  rw [run, run_ch, run, if_pos rfl]

theorem cap_len (a b : List Char) : (a ++ b).take ((a ++ b).length - b.length) = a := by simp

/-! ### ifdef -/

theorem names_run {a : List Char} {c : Char} {bf t : List Char} {cp : List (Nat × List Char)} {k : St → Option St} {x : St} (hne : a ≠ []) (hb : '[' ∉ a ++ [c])
    (hc : space c = false) (h0 : k ⟨(a ++ [c]).reverse ++ bf, '[' :: t, cp⟩ = some x) :
    run word (.seq (.plus (.set (· ≠ '['))) (.set fun c => c ≠ '[' && !space c)) ⟨bf, a ++ [c] ++ '[' :: t, cp⟩ k = some x := by
  rw [run, run_plus]
  have hs : spanLen (fun c => decide (c ≠ '[')) (a ++ [c] ++ '[' :: t) = (a ++ [c]).length := spanLen_append (by
    intro x hx
    simp only [ne_eq, decide_not, Bool.not_eq_eq_eq_not, Bool.not_true, decide_eq_false_iff_not]
    rintro rfl; exact hb hx) (by intro x hx; simp at hx; subst hx; rfl)
  simp only [hs, List.length_append, List.length_singleton]
  have hpos := List.length_pos_iff.2 hne
  refine downTo_skip (j := a.length - 1) (by omega) ?_ ?_
  · intro i h1 h2
    have hi : 1 + i = (a ++ [c]).length := by simp; omega
    rw [hi, adv_append]
    exact run_set_none (by intro x hx; simp at hx; subst hx; simp)
  · rw [show 1 + (a.length - 1) = a.length by omega, List.append_assoc, adv_append, List.singleton_append, run_set_cons, if_pos]
    · simpa using h0
    · simp only [List.mem_append, List.mem_singleton, not_or] at hb
      simp [hc]
      exact fun e => hb.2 e.symm

theorem run_opt_n {rest : List Char} {bf : List Char} {cp : List (Nat × List Char)} {k : St → Option St} (h : rest.head? ≠ some 'n') :
    run word (.opt (.ch 'n')) ⟨bf, rest, cp⟩ k = k ⟨bf, rest, cp⟩ := opt_none (run_ch_none h)

/-- the rest of the expression, after `def::` -/
theorem ifdef_tail {a t : List Char} {c : Char} {bf : List Char} (hne : a ≠ []) (hb : '[' ∉ a ++ [c]) (hc : space c = false) (ht : '\n' ∉ t) :
    ∃ bf', run word (.seq (.cap 1 (.seq (.plus (.set (· ≠ '['))) (.set fun c => c ≠ '[' && !space c)))
      (.seq (.ch '[') (.seq (.cap 2 (.star true dot)) (.seq (.ch ']') .eol)))) ⟨bf, a ++ [c] ++ '[' :: (t ++ [']']), []⟩ some =
      some ⟨bf', [], [(2, t), (1, a ++ [c])]⟩ := by
  refine ⟨']' :: (t.reverse ++ ('[' :: ((a ++ [c]).reverse ++ bf))), ?_⟩
  rw [run, run]
  refine names_run hne hb hc ?_
  rw [cap_len, run, run_ch, run, run]
  refine star_dot_close ht ?_ ?_
  · exact close_none
  · rw [cap_len, close_some]

theorem ifdef_match (a t : List Char) (c : Char) (hne : a ≠ []) (hb : '[' ∉ a ++ [c]) (hc : space c = false) (ht : '\n' ∉ t) :
    matchIfdef ("ifdef::".toList ++ (a ++ [c]) ++ '[' :: (t ++ [']'])) = some (a ++ [c], t) ∧
    matchIfdef ("ifndef::".toList ++ (a ++ [c]) ++ '[' :: (t ++ [']'])) = some (a ++ [c], t) := by
  constructor
  · obtain ⟨bf', h⟩ := ifdef_tail (word := fun _ => false) (bf := "def::".toList.reverse ++ "if".toList.reverse) hne hb hc ht
    have : run (fun _ => false) (.seq (litRe "if") (.seq (.opt (.ch 'n')) (.seq (litRe "def::") (.seq (.cap 1 (.seq (.plus (.set (· ≠ '['))) (.set fun c => c ≠ '[' && !space c)))
      (.seq (.ch '[') (.seq (.cap 2 (.star true dot)) (.seq (.ch ']') .eol))))))) ⟨[], "ifdef::".toList ++ (a ++ [c]) ++ '[' :: (t ++ [']']), []⟩ some = some ⟨bf', [], [(2, t), (1, a ++ [c])]⟩ := by
      rw [run, show "ifdef::".toList ++ (a ++ [c]) ++ '[' :: (t ++ [']']) = "if".toList ++ ("def::".toList ++ (a ++ [c] ++ '[' :: (t ++ [']']))) by simp, lit_run, run, run_opt_n (by simp), run, lit_run]
      simpa using h
    rw [matchIfdef, ifdefRe, captures_bol, this]
    rfl
  · obtain ⟨bf', h⟩ := ifdef_tail (word := fun _ => false) (bf := "def::".toList.reverse ++ 'n' :: "if".toList.reverse) hne hb hc ht
    have : run (fun _ => false) (.seq (litRe "if") (.seq (.opt (.ch 'n')) (.seq (litRe "def::") (.seq (.cap 1 (.seq (.plus (.set (· ≠ '['))) (.set fun c => c ≠ '[' && !space c)))
      (.seq (.ch '[') (.seq (.cap 2 (.star true dot)) (.seq (.ch ']') .eol))))))) ⟨[], "ifndef::".toList ++ (a ++ [c]) ++ '[' :: (t ++ [']']), []⟩ some = some ⟨bf', [], [(2, t), (1, a ++ [c])]⟩ := by
      rw [run, show "ifndef::".toList ++ (a ++ [c]) ++ '[' :: (t ++ [']']) = "if".toList ++ ('n' :: ("def::".toList ++ (a ++ [c] ++ '[' :: (t ++ [']'])))) by simp, lit_run, run]
      refine opt_some ?_
      rw [run_ch, run, lit_run]
      simpa using h
    rw [matchIfdef, ifdefRe, captures_bol, this]
    rfl

/-- what is recognised as an `ifdef` or `ifndef` directive -/
theorem ifdef_only {line a t : List Char} (h : matchIfdef line = some (a, t)) :
    (line = "ifdef::".toList ++ a ++ '[' :: (t ++ [']']) ∨ line = "ifndef::".toList ++ a ++ '[' :: (t ++ [']'])) ∧
    '[' ∉ a ∧ 2 ≤ a.length ∧ (∀ c ∈ a.getLast?, space c = false) ∧ '\n' ∉ t := by
  rw [matchIfdef, ifdefRe, captures_bol] at h
  obtain ⟨m, hm, e⟩ := Option.map_eq_some_iff.1 h
  obtain ⟨s, hs, rfl⟩ := Option.map_eq_some_iff.1 hm
  clear h hm
  rw [run] at hs
  obtain ⟨l1, e1, hs⟩ := lit_some hs
  rw [run] at hs
  have key : ∀ (bf l2 : List Char), run (fun _ => false) (.seq (litRe "def::") (.seq (.cap 1 (.seq (.plus (.set (· ≠ '['))) (.set fun c => c ≠ '[' && !space c)))
      (.seq (.ch '[') (.seq (.cap 2 (.star true dot)) (.seq (.ch ']') .eol))))) ⟨bf, l2, []⟩ some = some s →
      l2 = "def::".toList ++ a ++ '[' :: (t ++ [']']) ∧ '[' ∉ a ∧ 2 ≤ a.length ∧ (∀ c ∈ a.getLast?, space c = false) ∧ '\n' ∉ t := by
    intro bf l2 hs
    rw [run] at hs
    obtain ⟨l3, e3, hs⟩ := lit_some hs
    rw [run, run, run] at hs
    obtain ⟨b, l4, e4, hb1, hb2, hs⟩ := plus_some hs
    obtain ⟨c, l5, e5, hc, hs⟩ := set_some hs
    rw [run] at hs
    obtain ⟨l6, e6, hs⟩ := ch_some hs
    rw [run, run] at hs
    obtain ⟨u, l7, e7, hu, hs⟩ := star_some hs
    rw [run] at hs
    obtain ⟨l8, e8, hs⟩ := ch_some hs
    obtain ⟨e9, hs⟩ := eol_some hs
    simp only at e3 e4 e5 e6 e7 e8 e9 hs
    subst e3 e9 e8 e6 e5 e4 e7
    cases hs
    have g1 : b ++ [c] = a := by
      have : (b ++ c :: '[' :: (u ++ [']'])).take ((b ++ c :: '[' :: (u ++ [']'])).length - ('[' :: (u ++ [']'])).length) = a := by
        have := congrArg Prod.fst e
        simpa [groupOf, Match.group, List.lookup] using this
      rw [← this, show b ++ c :: '[' :: (u ++ [']']) = (b ++ [c]) ++ '[' :: (u ++ [']']) by simp, cap_len]
    have g2 : u = t := by
      have : (u ++ [']']).take ((u ++ [']']).length - [']'].length) = t := by
        have := congrArg Prod.snd e
        simpa [groupOf, Match.group, List.lookup] using this
      rw [← this, cap_len]
    subst g1 g2
    simp only [ne_eq, Bool.and_eq_true, decide_not, Bool.not_eq_eq_eq_not, Bool.not_true, decide_eq_false_iff_not] at hc hb2
    refine ⟨by simp, ?_, ?_, ?_, ?_⟩
    · simp only [List.mem_append, List.mem_singleton, not_or]
      exact ⟨fun h => hb2 _ h rfl, fun h => hc.1 h.symm⟩
    · have := List.length_pos_iff.2 hb1
      simp; omega
    · simp [hc.2]
    · intro h
      have := hu _ h
      simp at this
  simp only at e1
  subst e1
  rw [Re.opt, run] at hs
  rcases Option.or_eq_some_iff.1 hs with hs | ⟨_, hs⟩
  · obtain ⟨l2, e2, hs⟩ := ch_some hs
    simp only at e2
    subst e2
    obtain ⟨rfl, h1⟩ := key _ _ hs
    exact ⟨.inr (by simp), h1⟩
  · rw [run] at hs
    obtain ⟨rfl, h1⟩ := key _ _ hs
    exact ⟨.inl (by simp), h1⟩

/-! ### endif -/

theorem endif_match (t : List Char) (ht : ∀ c ∈ t, space c = false) : matchEndif ("endif::".toList ++ t ++ ['[', ']']) = some t := by
  have : ∃ bf', run (fun _ => false) (.seq (litRe "endif::") (.seq (.cap 1 (.star true (.set fun c => !space c))) (.seq (litRe "[]") .eol)))
      ⟨[], "endif::".toList ++ t ++ ['[', ']'], []⟩ some = some ⟨bf', [], [(1, t)]⟩ := by
    refine ⟨"[]".toList.reverse ++ (t.reverse ++ ("endif::".toList.reverse ++ [])), ?_⟩
    rw [run, List.append_assoc, lit_run, run, run, run_star]
    have hs : spanLen (fun c => !space c) (t ++ ['[', ']']) = t.length + 2 := by
      have := spanLen_append (p := fun c => !space c) (a := t ++ ['[', ']']) (b := []) (by
        intro c hc
        simp only [List.mem_append, List.mem_cons, List.not_mem_nil, or_false] at hc
        rcases hc with h | rfl | rfl
        · simp [ht _ h]
        · decide
        · decide) (by simp)
      simpa using this
    simp only [hs]
    refine downTo_skip (j := t.length) (by omega) ?_ ?_
    · intro i h1 h2
      rw [run]
      cases hk : run (fun _ => false) (litRe "[]") { adv (0 + i) ⟨"endif::".toList.reverse ++ [], t ++ ['[', ']'], []⟩ with
          caps := (1, (t ++ ['[', ']']).take ((t ++ ['[', ']']).length - (adv (0 + i) ⟨"endif::".toList.reverse ++ [], t ++ ['[', ']'], []⟩).rest.length)) :: [] }
          (fun s => run (fun _ => false) .eol s some) with
      | none => exact hk
      | some s =>
        exfalso
        obtain ⟨cs, e, _⟩ := lit_some hk
        have := congrArg List.length e
        simp [adv] at this
        omega
    · rw [Nat.zero_add, adv_append, cap_len, run, show ['[', ']'] = "[]".toList ++ [] by simp, lit_run, run, if_pos rfl]
  obtain ⟨bf', h⟩ := this
  rw [matchEndif, endifRe, captures_bol, h]
  rfl

theorem endif_only {line t : List Char} (h : matchEndif line = some t) : line = "endif::".toList ++ t ++ ['[', ']'] ∧ ∀ c ∈ t, space c = false := by
  rw [matchEndif, endifRe, captures_bol] at h
  obtain ⟨m, hm, e⟩ := Option.map_eq_some_iff.1 h
  obtain ⟨s, hs, rfl⟩ := Option.map_eq_some_iff.1 hm
  clear h hm
  rw [run] at hs
  obtain ⟨l1, e1, hs⟩ := lit_some hs
  rw [run, run] at hs
  obtain ⟨u, l2, e2, hu, hs⟩ := star_some hs
  rw [run] at hs
  obtain ⟨l3, e3, hs⟩ := lit_some hs
  obtain ⟨e4, hs⟩ := eol_some hs
  simp only at e1 e2 e3 e4
  subst e4 e3 e2 e1
  cases hs
  have g : u = t := by
    have : (u ++ ("[]".toList ++ [])).take ((u ++ ("[]".toList ++ [])).length - ("[]".toList ++ []).length) = t := by
      simpa [groupOf, Match.group, List.lookup] using e
    rw [← this, cap_len]
  subst g
  exact ⟨by simp, fun c hc => by simpa using hu c hc⟩

/-! ### ifeval -/

/-- a character of an operator -/
def opChar (c : Char) : Bool := c = '=' || c = '!' || c = '>' || c = '<'

/-- an operator, and what follows it when the operator is as long as possible -/
inductive OpThen : List Char → List Char → Prop where
  | two (c : Char) (rest : List Char) : c = '=' ∨ c = '!' ∨ c = '>' ∨ c = '<' → OpThen [c, '='] rest
  | one (c : Char) (rest : List Char) : c = '>' ∨ c = '<' → rest.head? ≠ some '=' → OpThen [c] rest

theorem run_seq (a b : Re) (st : St) (k : St → Option St) : run word (.seq a b) st k = run word a st fun s => run word b s k := by rw [run]

theorem op_run {o r bf : List Char} {cp : List (Nat × List Char)} {k : St → Option St} {x : St} (h : OpThen o r) (hk : k ⟨o.reverse ++ bf, r, cp⟩ = some x) :
    run word opRe ⟨bf, o ++ r, cp⟩ k = some x := by
  rw [opRe, run, run_seq]
  cases h with
  | two c _ hc =>
    simp only [List.cons_append, List.nil_append]
    rw [run_set_cons, if_pos (by rcases hc with rfl | rfl | rfl | rfl <;> rfl), run_ch]
    simp only [List.reverse_cons, List.reverse_nil, List.nil_append, List.cons_append] at hk
    rw [hk]; rfl
  | one c _ hc hr =>
    simp only [List.cons_append, List.nil_append]
    rw [run_set_cons, if_pos (by rcases hc with rfl | rfl <;> rfl), run_ch_none hr, Option.none_or, run_set_cons, if_pos (by rcases hc with rfl | rfl <;> rfl)]
    simpa using hk

theorem op_none {l bf : List Char} {cp : List (Nat × List Char)} {k : St → Option St} (h : ∀ c ∈ l.head?, opChar c = false) : run word opRe ⟨bf, l, cp⟩ k = none := by
  rw [opRe, run, run_seq, run_set_none (by simpa [opChar] using h), Option.none_or]
  refine run_set_none ?_
  intro c hc
  have := h c hc
  simp only [opChar, Bool.or_eq_false_iff] at this
  simp [this.1.2, this.2]

theorem head_left {a b : List Char} (h : a ≠ []) : (a ++ b).head? = a.head? := by
  cases a with
  | nil => exact absurd rfl h
  | cons x a => rfl

theorem space_ch : (Re.ch ' ') = .set (· = ' ') := rfl

/-- a part of the left side is not followed by an operator -/
theorem early_none {u rest bf : List Char} {cp : List (Nat × List Char)} {k : St → Option St} (hne : u ≠ []) (hu : ∀ c ∈ u, opChar c = false) (hlast : u.getLast? ≠ some ' ') :
    run word (.seq (.star true (.ch ' ')) (.seq (.cap 3 opRe) k')) ⟨bf, u ++ rest, cp⟩ k = none := by
  rw [run, space_ch, run_star]
  refine downTo_none ?_
  intro i hi
  rw [Nat.zero_add, run, run]
  -- the spaces end within the left side
  have hi' : i < u.length := by
    false_or_by_contra
    rename_i hge
    have hall : ∀ c ∈ (u ++ rest).take i, decide (c = ' ') = true := take_span hi
    rw [List.getLast?_eq_some_getLast hne] at hlast
    have hm : u.getLast hne ∈ (u ++ rest).take i := by
      rw [List.take_append]
      refine List.mem_append_left _ ?_
      rw [List.take_of_length_le (by omega)]
      exact List.getLast_mem hne
    have := hall _ hm
    exact hlast (by simpa using this)
  rw [adv]
  refine op_none ?_
  intro c hc
  rw [List.drop_append_of_le_length (by omega), head_left (by
    intro e
    have := congrArg List.length e
    simp at this
    omega)] at hc
  exact hu c (List.mem_of_mem_drop (List.mem_of_mem_head? hc))

theorem ifeval_match (l s1 o s2 r : List Char) (hl : l ≠ []) (hl1 : ∀ c ∈ l, opChar c = false) (hl2 : l.getLast? ≠ some ' ') (hln : '\n' ∉ l)
    (hs1 : ∀ c ∈ s1, c = ' ') (hs2 : ∀ c ∈ s2, c = ' ') (ho : OpThen o (s2 ++ r ++ [']'])) (hr : r ≠ []) (hr1 : r.head? ≠ some ' ') (hrn : '\n' ∉ r) :
    matchIfeval ("ifeval::[".toList ++ l ++ s1 ++ o ++ s2 ++ r ++ [']']) = some ([], l, o, r) := by
  have : ∃ bf', run (fun _ => false) (.seq (litRe "ifeval::") (.seq (.cap 1 (.star false dot)) (.seq (.ch '[') (.seq (.cap 2 (.plusLazy dot))
      (.seq (.star true (.ch ' ')) (.seq (.cap 3 opRe) (.seq (.star true (.ch ' ')) (.seq (.cap 4 (.plus dot)) (.seq (.ch ']') .eol)))))))))
      ⟨[], "ifeval::[".toList ++ l ++ s1 ++ o ++ s2 ++ r ++ [']'], []⟩ some = some ⟨bf', [], [(4, r), (3, o), (2, l), (1, [])]⟩ := by
    refine ⟨']' :: (r.reverse ++ (s2.reverse ++ (o.reverse ++ (s1.reverse ++ (l.reverse ++ ('[' :: ("ifeval::".toList.reverse ++ []))))))), ?_⟩
    rw [run, show "ifeval::[".toList ++ l ++ s1 ++ o ++ s2 ++ r ++ [']'] = "ifeval::".toList ++ ('[' :: (l ++ (s1 ++ (o ++ (s2 ++ (r ++ [']'])))))) by simp, lit_run, run, run, dot, run_star_lazy]
    refine upFrom_first ?_
    rw [adv_zero]
    simp only [Nat.sub_self, List.take_zero]
    rw [run, run_ch, run, run, run_plusLazy]
    have hlen := List.length_pos_iff.2 hl
    obtain ⟨d, hd, hdl⟩ : ∃ d, spanLen (fun c => decide (c ≠ '\n')) (l ++ (s1 ++ (o ++ (s2 ++ (r ++ [']']))))) = d + 1 ∧ l.length ≤ d + 1 := by
      have : l.length ≤ spanLen (fun c => decide (c ≠ '\n')) (l ++ (s1 ++ (o ++ (s2 ++ (r ++ [']']))))) := by
        rw [spanLen, List.takeWhile_append_of_pos (by intro c hc; rw [dot_iff]; rintro rfl; exact hln hc)]
        simp
      have hp := Nat.succ_pred_eq_of_pos (Nat.lt_of_lt_of_le hlen this)
      exact ⟨_, hp.symm, by omega⟩
    simp only [hd]
    refine upFrom_skip (j := l.length - 1) (by omega) ?_ ?_
    · intro i hi
      have e : adv (1 + i) ⟨'[' :: ("ifeval::".toList.reverse ++ []), l ++ (s1 ++ (o ++ (s2 ++ (r ++ [']'])))), [(1, [])]⟩ =
          ⟨(l.take (1 + i)).reverse ++ '[' :: ("ifeval::".toList.reverse ++ []), l.drop (1 + i) ++ (s1 ++ (o ++ (s2 ++ (r ++ [']'])))), [(1, [])]⟩ := by
        rw [adv, List.take_append_of_le_length (by omega), List.drop_append_of_le_length (by omega)]
      rw [e]
      refine early_none ?_ (fun c hc => hl1 c (List.mem_of_mem_drop hc)) ?_
      · intro e
        have := congrArg List.length e
        simp at this
        omega
      · rw [List.getLast?_drop, if_neg (by omega)]; exact hl2
    · rw [show 1 + (l.length - 1) = l.length by omega, adv_append, cap_len, run, space_ch]
      refine star_all (by simpa using hs1) ?_ ?_
      · cases ho with
        | two c _ hc => intro x hx; simp at hx; subst hx; rcases hc with rfl | rfl | rfl | rfl <;> decide
        | one c _ hc _ => intro x hx; simp at hx; subst hx; rcases hc with rfl | rfl <;> decide
      · rw [run, run]
        refine op_run (by simpa using ho) ?_
        rw [cap_len, run]
        refine star_all (by simpa using hs2) ?_ ?_
        · intro x hx
          rw [head_left hr] at hx
          have hx' : r.head? = some x := hx
          rw [hx'] at hr1
          simpa using hr1
        · rw [run, run]
          refine plus_dot_close hr hrn ?_ ?_
          · exact close_none
          · rw [cap_len, close_some]
  obtain ⟨bf', h⟩ := this
  rw [matchIfeval, ifevalRe, captures_bol, h]
  rfl

end Verif.Directives

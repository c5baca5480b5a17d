import Verif.Spec.AuthorLine
import Verif.Lemmas.Regex
/-! Lemmas: author lines and revision lines. -/
namespace Verif.AuthorLine
open Regex

variable {word : Char → Bool}

/-- white space, and then the end, an address or a separator -/
def Tail (l : List Char) : Prop := ∃ ws tl, l = ws ++ tl ∧ (∀ c ∈ ws, space c = true) ∧ ∀ c ∈ tl.head?, c = '<' ∨ c = ';'

theorem sp_lt : space '<' = false := by decide
theorem sp_semi : space ';' = false := by decide
theorem sp_dot : space '.' = false := by decide
theorem sp_us : space '_' = false := by decide

theorem drop_head {ws tl : List Char} {P : Char → Prop} (hw : ∀ c ∈ ws, P c) (ht : ∀ c ∈ tl.head?, P c) (i : Nat) (hi : i ≤ ws.length) : ∀ c ∈ ((ws ++ tl).drop i).head?, P c := by
  rw [List.drop_append_of_le_length hi]
  intro c hc
  cases hd : ws.drop i with
  | nil => rw [hd] at hc; exact ht c (by simpa using hc)
  | cons x xs =>
    rw [hd] at hc
    simp at hc
    subst hc
    exact hw x (List.mem_of_mem_drop (i := i) (by rw [hd]; simp))

theorem span_ws {ws tl : List Char} (hw : ∀ c ∈ ws, space c = true) (ht : ∀ c ∈ tl.head?, c = '<' ∨ c = ';') : spanLen space (ws ++ tl) = ws.length :=
  spanLen_append hw (fun c hc => by rcases ht c hc with h | h <;> subst h <;> decide)

theorem last_tail {l bf : List Char} {cp : List (Nat × List Char)} {k : St → Option St} (h : Tail l) : run word lastRe ⟨bf, l, cp⟩ k = none := by
  obtain ⟨ws, tl, rfl, hw, ht⟩ := h
  rw [lastRe, run, run, run_star]
  simp only [span_ws hw ht]
  refine downTo_none (fun i hi => ?_)
  rw [run]
  simp only [adv]
  refine plus_none ?_
  intro c hc
  rw [Nat.zero_add] at hc
  have := drop_head (P := fun c => space c = true ∨ c = '<' ∨ c = ';') (fun c h => .inl (hw c h)) (fun c h => .inr (ht c h)) i hi c hc
  rcases this with h | h | h
  · simp [h]
  · subst h; decide
  · subst h; decide

/-- one iteration of the middle names -/
def midOne : Re := .cap 2 (.seq (.plus (.set space)) (.cap 3 (.seq (.plus (.set fun c => c ≠ '<' && c ≠ ';')) .wordB)))

theorem middle_eq : middleRe = .star true midOne := rfl

theorem not_word (cl : Classes) {c : Char} (h : space c = true ∨ c = '<' ∨ c = ';') : cl.word c = false := by
  rcases h with h | h | h
  · cases hw : cl.word c with
    | false => rfl
    | true => rw [cl.word_space c hw] at h; cases h
  · subst h; rw [cl.word_ascii _ (by decide)]; decide
  · subst h; rw [cl.word_ascii _ (by decide)]; decide

theorem isWord_false (cl : Classes) {l : List Char} (h : ∀ c ∈ l.head?, space c = true ∨ c = '<' ∨ c = ';') : isWord cl.word l.head? = false := by
  cases hl : l.head? with
  | none => rfl
  | some c => exact not_word cl (h c (by simp [hl]))

theorem span_not {ws tl : List Char} (hw : ∀ c ∈ ws, c ≠ '<' ∧ c ≠ ';') (ht : ∀ c ∈ tl.head?, c = '<' ∨ c = ';') : spanLen (fun c => c ≠ '<' && c ≠ ';') (ws ++ tl) = ws.length :=
  spanLen_append (fun c hc => by simp [hw c hc]) (fun c hc => by rcases ht c hc with h | h <;> subst h <;> decide)

theorem ws_not {c : Char} (h : space c = true) : c ≠ '<' ∧ c ≠ ';' := by
  constructor <;> (rintro rfl; revert h; decide)

/-- the character before a position -/
theorem adv_prev {bf l : List Char} {cp : List (Nat × List Char)} {n : Nat} (h0 : 0 < n) (hn : n ≤ l.length) : (adv n ⟨bf, l, cp⟩).before.head? = l[n - 1]? := by
  simp only [adv]
  obtain ⟨m, rfl⟩ : ∃ m, n = m + 1 := ⟨n - 1, by omega⟩
  have : l.take (m + 1) = l.take m ++ [l[m]] := (List.take_append_getElem (by omega)).symm
  rw [this, List.reverse_append, List.getElem?_eq_getElem (show m + 1 - 1 < l.length by omega)]
  rfl

theorem mid_tail (cl : Classes) {l bf : List Char} {cp : List (Nat × List Char)} {k : St → Option St} (h : Tail l) : run cl.word midOne ⟨bf, l, cp⟩ k = none := by
  obtain ⟨ws, tl, rfl, hw, ht⟩ := h
  rw [midOne, run, run, run_plus]
  simp only [span_ws hw ht]
  cases hws : ws with
  | nil => rfl
  | cons x xs =>
    rw [← hws]
    have hlen : ws.length = xs.length + 1 := by simp [hws]
    simp only [hlen]
    refine downTo_none (fun i hi => ?_)
    rw [run, run]
    simp only [adv]
    have e : (ws ++ tl).drop (1 + i) = ws.drop (1 + i) ++ tl := List.drop_append_of_le_length (by omega)
    have hw' : ∀ c ∈ ws.drop (1 + i), space c = true := fun c hc => hw c (List.mem_of_mem_drop hc)
    rw [e, run_plus]
    simp only [span_not (fun c hc => ws_not (hw' c hc)) ht]
    cases hd : ws.drop (1 + i) with
    | nil => rfl
    | cons y ys =>
      rw [← hd]
      have hl2 : (ws.drop (1 + i)).length = ys.length + 1 := by simp [hd]
      simp only [hl2]
      refine downTo_none (fun j hj => ?_)
      rw [run, if_neg]
      rw [Decidable.not_not]
      rw [adv_prev (by omega) (by simp [hl2]; omega)]
      have h1 : ∃ c, (ws.drop (1 + i) ++ tl)[1 + j - 1]? = some c ∧ space c = true := by
        rw [List.getElem?_append_left (by omega), List.getElem?_eq_getElem (by omega)]
        exact ⟨_, rfl, hw' _ (List.getElem_mem _)⟩
      obtain ⟨c, hc, hs⟩ := h1
      rw [hc]
      have h2 : isWord cl.word (adv (1 + j) ⟨((ws ++ tl).take (1 + i)).reverse ++ bf, ws.drop (1 + i) ++ tl, cp⟩).rest.head? = false := by
        refine isWord_false cl (fun c hc => ?_)
        simp only [adv] at hc
        exact drop_head (P := fun c => space c = true ∨ c = '<' ∨ c = ';') (fun c h => .inl (hw' c h)) (fun c h => .inr (ht c h)) (1 + j) (by omega) c hc
      rw [h2]
      exact not_word cl (.inl hs)

theorem loop_skip {step : St → (St → Option St) → Option St} {k : St → Option St} {st : St} (h : ∀ k', step st k' = none) (n : Nat) : loop step true k n st = k st := by
  cases n with
  | zero => rfl
  | succ n => simp [loop, h]

theorem mid_word (cl : Classes) {l bf : List Char} {cp : List (Nat × List Char)} {k : St → Option St} (h : ∀ c ∈ l.head?, space c = false) : run cl.word midOne ⟨bf, l, cp⟩ k = none := by
  rw [midOne, run, run]
  exact plus_none h

/-- The text `m` (which may be empty), the last name and what follows: the longest text that ends with a word boundary and
lets the last name match is `m`. -/
theorem mid_try (cl : Classes) {m last l bf : List Char} {cp : List (Nat × List Char)} {k : St → Option St} (hm : ∀ c ∈ m, c ≠ '<' ∧ c ≠ ';')
    (hw : ∀ c ∈ last, cl.word c = true) (ht : Tail l) (hk : k ⟨(m ++ last).reverse ++ bf, l, cp⟩ = none) :
    ∀ j, m.length < j → j ≤ m.length + last.length + l.length → j ≤ spanLen (fun c => c ≠ '<' && c ≠ ';') (m ++ last ++ l) →
      run cl.word .wordB (adv j ⟨bf, m ++ last ++ l, cp⟩) k = none := by
  obtain ⟨ws, tl, rfl, hws, htl⟩ := ht
  intro j h1 h2 h3
  have hlast : ∀ c ∈ last, c ≠ '<' ∧ c ≠ ';' := by
    intro c hc
    have := hw c hc
    constructor <;> (rintro rfl; rw [cl.word_ascii _ (by decide)] at this; revert this; decide)
  have hsp : spanLen (fun c => c ≠ '<' && c ≠ ';') (m ++ last ++ (ws ++ tl)) = (m ++ last ++ ws).length := by
    rw [← List.append_assoc]
    refine span_not (fun c hc => ?_) htl
    simp only [List.mem_append] at hc
    rcases hc with (hc | hc) | hc
    · exact hm c hc
    · exact hlast c hc
    · exact ws_not (hws c hc)
  rw [hsp] at h3
  simp only [List.length_append] at h3
  rw [run]
  by_cases hj : j = m.length + last.length
  · split
    · have := adv_append (m ++ last) (ws ++ tl) bf cp
      rw [List.length_append, ← hj] at this
      rw [this]
      exact hk
    · rfl
  · rw [if_neg]
    rw [Decidable.not_not, adv_prev (by omega) (by simp; omega)]
    by_cases hj2 : j < m.length + last.length
    · have e1 : (m ++ last ++ (ws ++ tl))[j - 1]? = last[j - 1 - m.length]? := by
        rw [List.getElem?_append_left (by simp; omega), List.getElem?_append_right (by omega)]
      have e2 : (adv j ⟨bf, m ++ last ++ (ws ++ tl), cp⟩).rest.head? = last[j - m.length]? := by
        simp only [adv, List.head?_drop]
        rw [List.getElem?_append_left (by simp; omega), List.getElem?_append_right (by omega)]
      rw [e1, e2, List.getElem?_eq_getElem (by omega), List.getElem?_eq_getElem (by omega)]
      simp only [isWord]
      rw [hw _ (List.getElem_mem _), hw _ (List.getElem_mem _)]
    · have e1 : (m ++ last ++ (ws ++ tl))[j - 1]? = ws[j - 1 - (m.length + last.length)]? := by
        rw [List.getElem?_append_right (by simp; omega), List.getElem?_append_left (by simp; omega), List.length_append]
      rw [e1, List.getElem?_eq_getElem (by omega)]
      have h4 : isWord cl.word (adv j ⟨bf, m ++ last ++ (ws ++ tl), cp⟩).rest.head? = false := by
        refine isWord_false cl (fun c hc => ?_)
        simp only [adv] at hc
        have e3 : (m ++ last ++ (ws ++ tl)).drop j = (ws ++ tl).drop (j - (m.length + last.length)) := by
          rw [List.drop_append, List.drop_eq_nil_of_le (by simp; omega)]
          simp
        rw [e3] at hc
        exact drop_head (P := fun c => space c = true ∨ c = '<' ∨ c = ';') (fun c h => .inl (hws c h)) (fun c h => .inr (htl c h)) _ (by omega) c hc
      rw [h4]
      exact not_word cl (.inl (hws _ (List.getElem_mem _)))

theorem cap_take (a b : List Char) : (a ++ b).take ((a ++ b).length - b.length) = a := by
  simp

/-- the text of an address in a line -/
def emText : Option (List Char × List Char × List Char) → List Char
  | none => []
  | some (gap, user, host) => gap ++ '<' :: (user ++ '@' :: host) ++ ['>']

/-- the text of a separator -/
def sepText : Option (List Char × List Char) → List Char
  | none => []
  | some (a, b) => a ++ ';' :: b

def EmOk : Option (List Char × List Char × List Char) → Prop
  | none => True
  | some (gap, user, host) => gap ≠ [] ∧ (∀ c ∈ gap, space c = true) ∧ user ≠ [] ∧ (∀ c ∈ user, space c = false ∧ c ≠ '>' ∧ c ≠ '@') ∧ host ≠ [] ∧
      ∀ c ∈ host, space c = false ∧ c ≠ '>'

def SepOk (next : List Char) : Option (List Char × List Char) → Prop
  | none => next = []
  | some (a, b) => (∀ c ∈ a, space c = true) ∧ (∀ c ∈ b, space c = true) ∧ ∀ c ∈ next.head?, space c = false

theorem sep_tail {sep : Option (List Char × List Char)} {next : List Char} (hs : SepOk next sep) :
    ∃ ws tl, sepText sep ++ next = ws ++ tl ∧ (∀ c ∈ ws, space c = true) ∧ ∀ c ∈ tl.head?, c = ';' := by
  cases sep with
  | none =>
    simp only [SepOk] at hs
    subst hs
    exact ⟨[], [], rfl, by simp, by simp⟩
  | some p =>
    obtain ⟨a, b⟩ := p
    exact ⟨a, ';' :: (b ++ next), by simp [sepText], hs.1, by simp⟩

theorem tail_of {em : Option (List Char × List Char × List Char)} {sep : Option (List Char × List Char)} {next : List Char} (he : EmOk em) (hs : SepOk next sep) :
    Tail (emText em ++ (sepText sep ++ next)) := by
  cases em with
  | none =>
    obtain ⟨ws, tl, h1, h2, h3⟩ := sep_tail hs
    exact ⟨ws, tl, by simpa [emText] using h1, h2, fun c hc => .inr (h3 c hc)⟩
  | some p =>
    obtain ⟨gap, user, host⟩ := p
    exact ⟨gap, '<' :: (user ++ '@' :: host) ++ ['>'] ++ (sepText sep ++ next), by simp [emText], he.2.1, by simp⟩

theorem sep_run {sep : Option (List Char × List Char)} {next : List Char} (hs : SepOk next sep) (bf : List Char) (cp : List (Nat × List Char)) :
    ∃ bf' cs, run word sepRe ⟨bf, sepText sep ++ next, cp⟩ some = some ⟨bf', next, cs⟩ ∧ ∀ n, n ≠ 7 → cs.lookup n = cp.lookup n := by
  cases sep with
  | none =>
    simp only [SepOk] at hs
    subst hs
    refine ⟨bf, cp, ?_, fun _ _ => rfl⟩
    rw [sepRe, opt_none]
    · rfl
    · rw [run, run, run_star]
      refine downTo_none (fun i hi => ?_)
      rw [run]
      exact run_ch_none (by simp [sepText])
  | some p =>
    obtain ⟨a, b⟩ := p
    obtain ⟨h1, h2, h3⟩ := hs
    refine ⟨b.reverse ++ ';' :: (a.reverse ++ bf), (7, a ++ ';' :: b) :: cp, ?_, fun n hn => ?_⟩
    · rw [sepRe]
      refine opt_some ?_
      rw [run, run]
      simp only [sepText, List.append_assoc, List.cons_append]
      refine star_all h1 (by simp [sp_semi]) ?_
      rw [run, run_ch]
      refine star_all h2 h3 ?_
      have e : a ++ ';' :: (b ++ next) = (a ++ ';' :: b) ++ next := by simp
      simp only [e, cap_take]
    · rw [List.lookup_cons]
      have : (n == 7) = false := by simpa using hn
      rw [this]

theorem email_run {em : Option (List Char × List Char × List Char)} {sep : Option (List Char × List Char)} {next : List Char} (he : EmOk em) (hs : SepOk next sep)
    (bf : List Char) {cp : List (Nat × List Char)} (h6 : cp.lookup 6 = none) :
    ∃ bf' cs, run word emailRe ⟨bf, emText em ++ (sepText sep ++ next), cp⟩ (fun s => run word sepRe s some) = some ⟨bf', next, cs⟩ ∧
      cs.lookup 6 = em.map (fun e => e.2.1 ++ '@' :: e.2.2) ∧ ∀ n, n < 6 → cs.lookup n = cp.lookup n := by
  cases em with
  | none =>
    obtain ⟨bf', cs, h1, h2⟩ := sep_run (word := word) hs bf cp
    refine ⟨bf', cs, ?_, by rw [h2 6 (by omega), h6]; rfl, fun n hn => h2 n (by omega)⟩
    rw [emailRe, opt_none]
    · exact h1
    · obtain ⟨ws, tl, e, hw, ht⟩ := sep_tail hs
      simp only [emText, List.nil_append]
      rw [e, run, run_plus]
      simp only [span_ws hw (fun c hc => .inr (ht c hc))]
      cases hws : ws.length with
      | zero => rfl
      | succ d =>
        refine downTo_none (fun i hi => ?_)
        rw [run]
        refine run_ch_none ?_
        intro hh
        have := drop_head (P := fun c => space c = true ∨ c = ';') (fun c h => .inl (hw c h)) (fun c h => .inr (ht c h)) (1 + i) (by omega) '<' (by rw [Option.mem_def]; exact hh)
        revert this
        decide
  | some p =>
    obtain ⟨gap, user, host⟩ := p
    obtain ⟨g1, g2, g3, g4, g5, g6⟩ := he
    have hsr : ∀ bf, ∃ bf' cs, run word sepRe ⟨bf, sepText sep ++ next, (6, user ++ '@' :: host) :: cp⟩ some = some ⟨bf', next, cs⟩ ∧
        ∀ n, n ≠ 7 → cs.lookup n = List.lookup n ((6, user ++ '@' :: host) :: cp) := fun bf => sep_run hs bf _
    obtain ⟨bf', cs, h1, h2⟩ := hsr ('>' :: (host.reverse ++ '@' :: (user.reverse ++ '<' :: (gap.reverse ++ bf))))
    refine ⟨bf', cs, ?_, by rw [h2 6 (by omega)]; rfl, fun n hn => ?_⟩
    · rw [emailRe]
      refine opt_some ?_
      rw [run]
      simp only [emText, List.append_assoc, List.cons_append, List.nil_append]
      refine plus_all g1 g2 (by simp [sp_lt]) ?_
      rw [run, run_ch, run, run, run]
      refine plus_all g3 (fun c hc => by simp [g4 c hc]) (by simp) ?_
      rw [run, run_ch]
      refine plus_all g5 (fun c hc => by simp [g6 c hc]) (by simp) ?_
      have e : user ++ '@' :: (host ++ '>' :: (sepText sep ++ next)) = (user ++ '@' :: host) ++ '>' :: (sepText sep ++ next) := by simp
      simp only [e, cap_take]
      rw [run_ch]
      exact h1
    · rw [h2 n (by omega), List.lookup_cons]
      have : (n == 6) = false := by simp; omega
      rw [this]

/-- the last name and what follows -/
theorem ends {g L : List Char} (hg : ∀ c ∈ g, space c = true) (hne : L ≠ []) (hL : ∀ c ∈ L, space c = false ∧ c ≠ '<' ∧ c ≠ ';')
    {em : Option (List Char × List Char × List Char)} {sep : Option (List Char × List Char)} {next : List Char} (he : EmOk em) (hs : SepOk next sep)
    (bf : List Char) {cp : List (Nat × List Char)} (h6 : cp.lookup 6 = none) :
    ∃ bf' cs, run word (.seq lastRe (.seq emailRe sepRe)) ⟨bf, g ++ (L ++ (emText em ++ (sepText sep ++ next))), cp⟩ some = some ⟨bf', next, cs⟩ ∧
      cs.lookup 6 = em.map (fun e => e.2.1 ++ '@' :: e.2.2) ∧ cs.lookup 5 = some L ∧ ∀ n, n < 4 → cs.lookup n = cp.lookup n := by
  obtain ⟨bf', cs, h1, h2, h3⟩ := email_run (word := word) he hs (L.reverse ++ (g.reverse ++ bf)) (cp := (4, g ++ L) :: (5, L) :: cp) (by
    rw [List.lookup_cons, List.lookup_cons]; exact h6)
  refine ⟨bf', cs, ?_, h2, by rw [h3 5 (by omega)]; rfl, fun n hn => ?_⟩
  · rw [run, lastRe, run, run]
    refine star_all hg ?_ ?_
    · cases L with
      | nil => exact absurd rfl hne
      | cons x xs => simp [hL x (by simp)]
    rw [run]
    refine plus_all hne (fun c hc => by simp [hL c hc]) ?_ ?_
    · intro c hc
      obtain ⟨ws, tl, e, hw, ht⟩ := tail_of he hs
      rw [e] at hc
      have := drop_head (P := fun c => space c = true ∨ c = '<' ∨ c = ';') (fun c h => .inl (hw c h)) (fun c h => .inr (ht c h)) 0 (by omega) c hc
      rcases this with h | h | h
      · simp [h]
      · subst h; decide
      · subst h; decide
    · simp only [cap_take]
      rw [← List.append_assoc g L, cap_take, run]
      exact h1
  · rw [h3 n (by omega), List.lookup_cons, List.lookup_cons]
    have h4 : (n == 4) = false := by simp; omega
    have h5 : (n == 5) = false := by simp; omega
    rw [h4, h5]

theorem middle_none (cl : Classes) {g : Char} (hg : space g = true) {L tail : List Char} (hne : L ≠ []) (hw : ∀ c ∈ L, cl.word c = true) (ht : Tail tail)
    {k : St → Option St} (hk : ∀ bf cp, k ⟨bf, tail, cp⟩ = none) (bf : List Char) (cp : List (Nat × List Char)) :
    run cl.word middleRe ⟨bf, g :: (L ++ tail), cp⟩ k = k ⟨bf, g :: (L ++ tail), cp⟩ := by
  rw [middle_eq, run]
  simp only [List.length_cons]
  rw [loop]
  simp only [if_true]
  have : run cl.word midOne ⟨bf, g :: (L ++ tail), cp⟩ (fun s => if s.rest.length < (g :: (L ++ tail)).length then loop (run cl.word midOne) true k (L ++ tail).length s else none) = none := by
    rw [midOne, run, run, run_plus]
    have hL : ∀ c ∈ (L ++ tail).head?, space c = false := by
      cases L with
      | nil => exact absurd rfl hne
      | cons x xs => simp [cl.word_space x (hw x (by simp))]
    have e : spanLen space (g :: (L ++ tail)) = 1 := spanLen_append (a := [g]) (by simp [hg]) hL
    simp only [e, downTo]
    have e2 : adv 1 ⟨bf, g :: (L ++ tail), cp⟩ = ⟨g :: bf, L ++ tail, cp⟩ := by simp [adv]
    rw [e2, run, run, run_plus]
    split
    · rfl
    · rename_i d hd
      simp only at hd
      refine downTo_none (fun i hi => ?_)
      have := mid_try cl (m := []) (last := L) (l := tail) (bf := g :: bf) (cp := cp) (by simp) hw ht (k := fun s => (fun s => (fun s : St => if s.rest.length < (g :: (L ++ tail)).length then loop (run cl.word midOne) true k (L ++ tail).length s else none)
          { s with caps := (2, (g :: (L ++ tail)).take ((g :: (L ++ tail)).length - s.rest.length)) :: s.caps })
          { s with caps := (3, (L ++ tail).take ((L ++ tail).length - s.rest.length)) :: s.caps }) (by
        simp only
        split
        · rw [loop_skip (fun k' => mid_tail cl ht)]
          exact hk _ _
        · rfl) (1 + i) (by simp; omega) (by have := spanLen_le (fun c => decide (c ≠ '<') && decide (c ≠ ';')) (L ++ tail); rw [hd] at this; simp at this ⊢; omega) (by simp only [List.nil_append]; omega)
      exact this
  rw [this]
  rfl

theorem middle_some (cl : Classes) {gap m gap2 : List Char} (hg : gap ≠ []) (hg' : ∀ c ∈ gap, space c = true) (hm : m ≠ []) (hm' : ∀ c ∈ m, c ≠ '<' ∧ c ≠ ';')
    (hms : ∀ c ∈ m.head?, space c = false) (hg2 : gap2 ≠ []) (hg2' : ∀ c ∈ gap2, space c = true) {L tail : List Char} (hne : L ≠ []) (hw : ∀ c ∈ L, cl.word c = true) (ht : Tail tail)
    {k : St → Option St} (hk : ∀ bf cp, k ⟨bf, tail, cp⟩ = none) {bf : List Char} {cp : List (Nat × List Char)} {r : St}
    (hr : k ⟨(m ++ gap2).reverse ++ (gap.reverse ++ bf), L ++ tail, (2, gap ++ (m ++ gap2)) :: (3, m ++ gap2) :: cp⟩ = some r) :
    run cl.word middleRe ⟨bf, gap ++ (m ++ gap2 ++ L ++ tail), cp⟩ k = some r := by
  have hhd : ∀ c ∈ (L ++ tail).head?, space c = false ∧ cl.word c = true := by
    cases L with
    | nil => exact absurd rfl hne
    | cons x xs => simp [cl.word_space x (hw x (by simp)), hw x (by simp)]
  rw [middle_eq, run]
  cases hn : (gap ++ (m ++ gap2 ++ L ++ tail)).length with
  | zero =>
    have : gap = [] := by
      have := List.eq_nil_of_length_eq_zero hn
      simp at this
      exact this.1
    exact absurd this hg
  | succ n =>
    rw [loop]
    simp only [if_true]
    have : run cl.word midOne ⟨bf, gap ++ (m ++ gap2 ++ L ++ tail), cp⟩ (fun s => if s.rest.length < (gap ++ (m ++ gap2 ++ L ++ tail)).length then loop (run cl.word midOne) true k n s else none) = some r := by
      rw [midOne, run, run]
      refine plus_all hg hg' ?_ ?_
      · cases m with
        | nil => exact absurd rfl hm
        | cons x xs => simpa using hms
      rw [run, run, run_plus]
      have hmg : ∀ c ∈ m ++ gap2, c ≠ '<' ∧ c ≠ ';' := by
        intro c hc
        rcases List.mem_append.1 hc with h | h
        · exact hm' c h
        · exact ws_not (hg2' c h)
      have hlast : ∀ c ∈ L, c ≠ '<' ∧ c ≠ ';' := by
        intro c hc
        have := hw c hc
        constructor <;> (rintro rfl; rw [cl.word_ascii _ (by decide)] at this; revert this; decide)
      have hsl : (m ++ gap2).length ≤ spanLen (fun c => decide (c ≠ '<') && decide (c ≠ ';')) (m ++ gap2 ++ L ++ tail) := by
        obtain ⟨ws, tl, rfl, hws, htl⟩ := ht
        have := span_not (ws := m ++ gap2 ++ L ++ ws) (tl := tl) (fun c hc => by
          simp only [List.mem_append] at hc
          rcases hc with (hc | hc) | hc
          · exact hmg c (List.mem_append.2 hc)
          · exact hlast c hc
          · exact ws_not (hws c hc)) htl
        rw [← List.append_assoc, this]
        simp
      have hpos : 0 < m.length := List.length_pos_iff.2 hm
      split
      · rename_i h0
        simp only at h0
        rw [h0] at hsl
        simp at hsl
        exact absurd hsl.1 hm
      · rename_i d hd
        simp only at hd
        rw [hd] at hsl
        have hlen : (m ++ gap2).length = 1 + ((m ++ gap2).length - 1) := by simp; omega
        refine downTo_skip (j := (m ++ gap2).length - 1) (by omega) (fun i h1 h2 => ?_) ?_
        · exact mid_try cl (m := m ++ gap2) (last := L) (l := tail) (cp := cp) (bf := gap.reverse ++ bf) hmg hw ht (by
            simp only
            split
            · exact (loop_skip (fun k' => mid_tail cl ht) n).trans (hk _ _)
            · rfl) (1 + i) (by omega) (by
              have := spanLen_le (fun c => decide (c ≠ '<') && decide (c ≠ ';')) (m ++ gap2 ++ L ++ tail)
              rw [hd] at this
              simp at this ⊢; omega) (by omega)
        · rw [← hlen, show m ++ gap2 ++ L ++ tail = (m ++ gap2) ++ (L ++ tail) by simp, adv_append, run, if_pos]
          · simp only [cap_take]
            have h3 : (L ++ tail).length < (gap ++ (m ++ gap2 ++ (L ++ tail))).length := by simp; omega
            have h4 : (gap ++ (m ++ gap2 ++ (L ++ tail))).take ((gap ++ (m ++ gap2 ++ (L ++ tail))).length - (L ++ tail).length) = gap ++ (m ++ gap2) := by
              rw [← List.append_assoc gap, cap_take]
            rw [if_pos h3]
            refine (loop_skip (fun k' => mid_word cl (fun c hc => (hhd c hc).1)) n).trans ?_
            simp only [h4]
            exact hr
          · have h5 : isWord cl.word (L ++ tail).head? = true := by
              cases L with
              | nil => exact absurd rfl hne
              | cons x xs => exact hw x (by simp)
            have h6 : isWord cl.word ((m ++ gap2).reverse ++ (gap.reverse ++ bf)).head? = false := by
              obtain ⟨y, ys, hy⟩ : ∃ y ys, gap2.reverse = y :: ys := by
                cases hh : gap2.reverse with
                | nil => simp at hh; exact absurd hh hg2
                | cons y ys => exact ⟨y, ys, rfl⟩
              rw [List.reverse_append, hy]
              exact not_word cl (.inl (hg2' y (by rw [← List.mem_reverse, hy]; simp)))
            rw [h5, h6]
            decide
    rw [this]
    rfl

theorem deUnderscore_underscored {l : List Char} (h : ∀ c ∈ l, c ≠ '_') : deUnderscore (underscored l) = l := by
  unfold deUnderscore underscored
  rw [List.map_map]
  have : l.map ((fun c => if c = '_' then ' ' else c) ∘ fun c => if c = ' ' then '_' else c) = l.map id := by
    refine List.map_congr_left (fun c hc => ?_)
    have := h c hc
    by_cases hs : c = ' '
    · simp [hs]
    · simp [hs, this]
  rw [this, List.map_id]

theorem deUnderscore_id {l : List Char} (h : ∀ c ∈ l, c ≠ '_') : deUnderscore l = l := by
  unfold deUnderscore
  have : l.map (fun c => if c = '_' then ' ' else c) = l.map id := List.map_congr_left (fun c hc => by simp [h c hc])
  rw [this, List.map_id]

theorem trimEnd_append {a b : List Char} (hb : ∀ c ∈ b, space c = true) (ha : ∀ c ∈ a.getLast?, space c = false) : trimEnd (a ++ b) = a := by
  unfold trimEnd
  rw [List.reverse_append, List.dropWhile_append_of_pos (fun c hc => hb c (List.mem_reverse.1 hc))]
  cases hr : a.reverse with
  | nil => simp at hr; simp [hr]
  | cons x xs =>
    have : a.getLast? = some x := by rw [← List.head?_reverse, hr]; rfl
    rw [List.dropWhile_cons, if_neg (by simp [ha x (by simp [this])]), ← hr, List.reverse_reverse]

theorem isGap_iff {l : List Char} : isGap l = true ↔ l ≠ [] ∧ ∀ c ∈ l, space c = true := by
  simp [isGap]

/-- the address of a written author -/
def Written.em (w : Written) : Option (List Char × List Char × List Char) := w.email.map fun e => (w.gap3, e.1, e.2)

/-- the condition, in words -/
structure Ok (cl : Classes) (w : Written) : Prop where
  firstNe : w.first ≠ []
  firstOk : ∀ c ∈ w.first, c ≠ '<' ∧ c ≠ '.' ∧ c ≠ ';' ∧ c ≠ '_' ∧ (c = ' ' ∨ space c = false)
  gapNe : w.gap ≠ []
  gapOk : ∀ c ∈ w.gap, space c = true
  midOk : (w.middle = [] ∧ w.gap.length = 1 ∧ w.gap2 = []) ∨ (w.middle ≠ [] ∧ (∀ c ∈ w.middle, c ≠ '<' ∧ c ≠ ';' ∧ c ≠ '_') ∧ (∀ c ∈ w.middle.head?, space c = false) ∧
    (∀ c ∈ w.middle.getLast?, space c = false) ∧ w.gap2 ≠ [] ∧ ∀ c ∈ w.gap2, space c = true)
  lastNe : w.last ≠ []
  lastOk : ∀ c ∈ w.last, c = ' ' ∨ (cl.word c = true ∧ c ≠ '_')
  emailOk : EmOk w.em
  noEmail : w.email = none → w.gap3 = []

theorem ok_of {cl : Classes} {w : Written} (h : w.ok cl.word = true) : Ok cl w := by
  obtain ⟨first, dot, gap, middle, gap2, last, gap3, email⟩ := w
  simp only [Written.ok, Bool.and_eq_true, isGap_iff] at h
  obtain ⟨⟨⟨⟨⟨⟨h1, h2⟩, h3⟩, h4⟩, h5⟩, h6⟩, h7⟩ := h
  refine ⟨by simpa using h1, ?_, h3.1, h3.2, ?_, by simpa using h5, ?_, ?_, ?_⟩
  · intro c hc
    have := List.all_eq_true.1 h2 c hc
    simp only [Bool.and_eq_true, Bool.or_eq_true, decide_eq_true_eq, Bool.not_eq_true'] at this
    obtain ⟨⟨⟨⟨a, b⟩, c⟩, d⟩, e⟩ := this
    exact ⟨a, b, c, d, e⟩
  · by_cases hm : middle = []
    · subst hm
      simp only [if_true, Bool.and_eq_true, decide_eq_true_eq] at h4
      exact .inl ⟨rfl, h4⟩
    · rw [if_neg hm] at h4
      simp only [Bool.and_eq_true, isGap_iff, List.all_eq_true, decide_eq_true_eq, Option.all_eq_true, Bool.not_eq_true'] at h4
      obtain ⟨⟨⟨a, b⟩, c⟩, d⟩ := h4
      exact .inr ⟨hm, fun x hx => ⟨(a x hx).1.1, (a x hx).1.2, (a x hx).2⟩, b, c, d.1, d.2⟩
  · intro c hc
    have := List.all_eq_true.1 h6 c hc
    simpa using this
  · cases email with
    | none => exact trivial
    | some e =>
      obtain ⟨u, ho⟩ := e
      simp only [Bool.and_eq_true, isGap_iff, List.all_eq_true, decide_eq_true_eq, Bool.not_eq_true'] at h7
      obtain ⟨⟨⟨⟨a, b⟩, c⟩, d⟩, e⟩ := h7
      exact ⟨a.1, a.2, b, fun x hx => ⟨(c x hx).1.1, (c x hx).1.2, (c x hx).2⟩, d, e⟩
  · intro he
    simp only at he
    subst he
    simpa using h7

theorem text_eq {cl : Classes} {w : Written} (h : Ok cl w) (rest : List Char) :
    w.text ++ rest = underscored w.first ++ ((if w.dot then ['.'] else []) ++ (w.gap ++ (w.middle ++ (w.gap2 ++ (underscored w.last ++ (emText w.em ++ rest)))))) := by
  obtain ⟨first, dot, gap, middle, gap2, last, gap3, email⟩ := w
  cases email with
  | none =>
    have := h.noEmail rfl
    simp only at this
    subst this
    simp [Written.text, Written.em, emText]
  | some e => simp [Written.text, Written.em, emText, emailText]

theorem underscored_first {cl : Classes} {w : Written} (h : Ok cl w) : ∀ c ∈ underscored w.first, space c = false ∧ c ≠ '<' ∧ c ≠ '.' := by
  intro c hc
  obtain ⟨d, hd, rfl⟩ := List.mem_map.1 hc
  obtain ⟨a, b, _, _, e⟩ := h.firstOk d hd
  by_cases hs : d = ' '
  · subst hs; decide
  · simp only [hs, if_false, false_or] at e ⊢
    exact ⟨e, a, b⟩

theorem underscored_last {cl : Classes} {w : Written} (h : Ok cl w) : ∀ c ∈ underscored w.last, cl.word c = true := by
  intro c hc
  obtain ⟨d, hd, rfl⟩ := List.mem_map.1 hc
  by_cases hs : d = ' '
  · subst hs
    rw [if_pos rfl, cl.word_ascii _ (by decide)]; decide
  · rcases h.lastOk d hd with e | e
    · exact absurd e hs
    · rw [if_neg hs]; exact e.1

theorem word_plain {cl : Classes} {c : Char} (h : cl.word c = true) : space c = false ∧ c ≠ '<' ∧ c ≠ ';' := by
  refine ⟨cl.word_space c h, ?_, ?_⟩ <;> (rintro rfl; rw [cl.word_ascii _ (by decide)] at h; revert h; decide)

/-- one author is read -/
theorem author_match {cl : Classes} {w : Written} (h : Ok cl w) {sep : Option (List Char × List Char)} {next : List Char} (hs : SepOk next sep) (bf : List Char) :
    ∃ bf' cs, run cl.word authorRe ⟨bf, w.text ++ (sepText sep ++ next), []⟩ some = some ⟨bf', next, cs⟩ ∧ ∀ n, authorFrom ⟨n, ⟨bf', next, cs⟩⟩ = some w.author := by
  have hL := underscored_last h
  have hLne : underscored w.last ≠ [] := by simp [underscored, h.lastNe]
  have htail := tail_of h.emailOk hs
  have hfirst := underscored_first h
  let dotT : List Char := if w.dot then ['.'] else []
  have hdot : (if w.dot then ['.'] else []) = dotT := rfl
  -- what the first name leaves
  have key : ∀ bf (cp : List (Nat × List Char)), cp.lookup 6 = none → cp.lookup 3 = none → ∃ bf' cs,
      run cl.word (.seq middleRe (.seq lastRe (.seq emailRe sepRe))) ⟨bf, w.gap ++ (w.middle ++ (w.gap2 ++ (underscored w.last ++ (emText w.em ++ (sepText sep ++ next))))), cp⟩ some
        = some ⟨bf', next, cs⟩ ∧ cs.lookup 6 = w.em.map (fun e => e.2.1 ++ '@' :: e.2.2) ∧ cs.lookup 5 = some (underscored w.last) ∧
        cs.lookup 3 = (if w.middle = [] then none else some (w.middle ++ w.gap2)) ∧ cs.lookup 1 = cp.lookup 1 := by
    intro bf cp h6 h3
    have hk : ∀ bf cp, run cl.word (.seq lastRe (.seq emailRe sepRe)) ⟨bf, emText w.em ++ (sepText sep ++ next), cp⟩ some = none := by
      intro bf cp
      rw [run]
      exact last_tail htail
    rcases h.midOk with ⟨m1, m2, m3⟩ | ⟨m1, m2, m3, m4, m5, m6⟩
    · obtain ⟨g, hg⟩ : ∃ g, w.gap = [g] := List.length_eq_one_iff.1 m2
      have hgs : space g = true := h.gapOk g (by rw [hg]; simp)
      obtain ⟨bf', cs, e1, e2, e3, e4⟩ := ends (word := cl.word) (g := [g]) (by simp [hgs]) hLne (fun c hc => word_plain (hL c hc)) h.emailOk hs bf h6
      refine ⟨bf', cs, ?_, e2, e3, ?_, e4 1 (by omega)⟩
      · rw [run, hg, m1, m3]
        exact (middle_none cl hgs hLne hL htail hk bf cp).trans e1
      · rw [m1, if_pos rfl, e4 3 (by omega), h3]
    · obtain ⟨bf', cs, e1, e2, e3, e4⟩ := ends (word := cl.word) (g := []) (by simp) hLne (fun c hc => word_plain (hL c hc)) h.emailOk hs
        ((w.middle ++ w.gap2).reverse ++ (w.gap.reverse ++ bf)) (cp := (2, w.gap ++ (w.middle ++ w.gap2)) :: (3, w.middle ++ w.gap2) :: cp) (by
          rw [List.lookup_cons, List.lookup_cons]; exact h6)
      refine ⟨bf', cs, ?_, e2, e3, ?_, by rw [e4 1 (by omega)]; rfl⟩
      · have := middle_some cl h.gapNe h.gapOk m1 (fun c hc => ⟨(m2 c hc).1, (m2 c hc).2.1⟩) m3 m5 m6 hLne hL htail (k := fun s => run cl.word (.seq lastRe (.seq emailRe sepRe)) s some) hk e1
        rw [run]
        simpa using this
      · rw [if_neg m1, e4 3 (by omega)]; rfl
  obtain ⟨bf', cs, e1, e2, e3, e4, e5⟩ := key (dotT.reverse ++ ((underscored w.first).reverse ++ bf)) [(1, underscored w.first ++ dotT)] rfl rfl
  refine ⟨bf', cs, ?_, fun n => ?_⟩
  · rw [text_eq h, authorRe, run, firstRe, run, run]
    refine plus_all (by simp [underscored, h.firstNe]) (fun c hc => by simp [hfirst c hc]) ?_ ?_
    · cases w.dot with
      | true => simp
      | false =>
        cases hg : w.gap with
        | nil => exact absurd hg h.gapNe
        | cons x xs => simp [h.gapOk x (by rw [hg]; simp)]
    · rw [hdot]
      have e : ∀ (a b c : List Char), (a ++ (b ++ c)).take ((a ++ (b ++ c)).length - c.length) = a ++ b := by
        intro a b c
        rw [← List.append_assoc, cap_take]
      cases hd : w.dot with
      | true =>
        have hdt : dotT = ['.'] := by simp [dotT, hd]
        refine opt_some ?_
        rw [hdt] at e1 ⊢
        simp only [List.cons_append, List.nil_append]
        rw [run_ch]
        have := e (underscored w.first) ['.'] (w.gap ++ (w.middle ++ (w.gap2 ++ (underscored w.last ++ (emText w.em ++ (sepText sep ++ next))))))
        simp only [List.cons_append, List.nil_append] at this
        simp only [this]
        exact e1
      | false =>
        have hdt : dotT = [] := by simp [dotT, hd]
        rw [hdt] at e1 ⊢
        rw [opt_none]
        · have := e (underscored w.first) [] (w.gap ++ (w.middle ++ (w.gap2 ++ (underscored w.last ++ (emText w.em ++ (sepText sep ++ next))))))
          simp only [List.nil_append] at this
          simp only [List.nil_append, this]
          exact e1
        · refine run_ch_none ?_
          cases hg : w.gap with
          | nil => exact absurd hg h.gapNe
          | cons x xs =>
            have := h.gapOk x (by rw [hg]; simp)
            simp only [List.nil_append, List.cons_append, List.head?_cons, ne_eq, Option.some.injEq]
            rintro rfl
            revert this; decide
  · have f1 : cs.lookup 1 = some (underscored w.first ++ dotT) := by rw [e5]; rfl
    have f2 : deUnderscore (underscored w.first ++ dotT) = w.first ++ dotT := by
      have : deUnderscore dotT = dotT := by
        refine deUnderscore_id (fun c hc => ?_)
        cases hd : w.dot <;> simp [dotT, hd] at hc
        subst hc; decide
      unfold deUnderscore at this ⊢
      rw [List.map_append, this]
      have := deUnderscore_underscored (l := w.first) (fun c hc => (h.firstOk c hc).2.2.2.1)
      unfold deUnderscore at this
      rw [this]
    have f3 : deUnderscore (underscored w.last) = w.last := by
      refine deUnderscore_underscored (fun c hc => ?_)
      rcases h.lastOk c hc with e | e
      · subst e; decide
      · exact e.2
    simp only [authorFrom, Match.group, f1, e3, e4, e2, f2, f3, Written.author]
    congr 2
    · rcases h.midOk with ⟨m1, m2, m3⟩ | ⟨m1, m2, m3, m4, m5, m6⟩
      · simp [m1]
      · rw [if_neg m1, if_neg m1, Option.map_some, trimEnd_append m6 m4, deUnderscore_id (fun c hc => (m2 c hc).2.2)]
    · simp [Written.em, Option.map_map]
      rfl

theorem text_head {cl : Classes} {w : Written} (h : Ok cl w) (rest : List Char) : ∃ c cs, w.text ++ rest = c :: cs ∧ space c = false := by
  rw [text_eq h]
  cases hu : underscored w.first with
  | nil => simp [underscored, h.firstNe] at hu
  | cons c cs => exact ⟨c, _, rfl, (underscored_first h c (by rw [hu]; simp)).1⟩

theorem line_head {cl : Classes} {w : Written} (h : Ok cl w) (rest : List (List Char × List Char × Written)) : ∀ c ∈ (authorLine w rest).head?, space c = false := by
  intro c hc
  cases rest with
  | nil =>
    obtain ⟨d, ds, e, hd⟩ := text_head h []
    rw [List.append_nil] at e
    rw [authorLine, e] at hc
    simp at hc; subst hc; exact hd
  | cons p rest =>
    obtain ⟨a, b, w'⟩ := p
    obtain ⟨d, ds, e, hd⟩ := text_head h (a ++ (';' :: b ++ authorLine w' rest))
    rw [authorLine, List.append_assoc, List.append_assoc] at hc
    rw [show w.text ++ (a ++ (';' :: b ++ authorLine w' rest)) = d :: ds from e] at hc
    simp at hc; subst hc; exact hd

theorem iter_line (cl : Classes) : ∀ (rest : List (List Char × List Char × Written)) (w : Written), Ok cl w → (∀ p ∈ rest, (∀ c ∈ p.1, space c = true) ∧ (∀ c ∈ p.2.1, space c = true) ∧ Ok cl p.2.2) →
    ∀ n bf, (authorLine w rest).length < n → ∃ ms z, capturesIter cl.word authorRe n bf (authorLine w rest) = ms ++ [z] ∧ z.stop.rest = [] ∧ (∀ m ∈ ms ++ [z], m.skipped = 0) ∧
      (ms ++ [z]).mapM authorFrom = some (w.author :: rest.map (·.2.2.author)) := by
  intro rest
  induction rest with
  | nil =>
    intro w hw _ n bf hn
    obtain ⟨bf', cs, h1, h2⟩ := author_match hw (sep := none) (next := []) rfl bf
    simp only [sepText, List.append_nil] at h1
    refine ⟨[], ⟨0, ⟨bf', [], cs⟩⟩, ?_, rfl, by simp, by simp [h2]⟩
    obtain ⟨c, l, e, _⟩ := text_head hw []
    rw [List.append_nil] at e
    rw [authorLine] at hn ⊢
    cases n with
    | zero => omega
    | succ n =>
      rw [capturesIter]
      rw [e] at h1 hn ⊢
      rw [search, h1]
      simp only
      cases n with
      | zero => simp at hn
      | succ n =>
        rw [capturesIter, search]
        have : run cl.word authorRe ⟨bf', [], []⟩ some = none := by
          rw [authorRe, run, firstRe, run, run]
          exact plus_none (by simp)
        rw [this]
        rfl
  | cons p rest ih =>
    intro w hw hr n bf hn
    obtain ⟨a, b, w'⟩ := p
    obtain ⟨ha, hb, hw'⟩ := hr (a, b, w') (by simp)
    obtain ⟨bf', cs, h1, h2⟩ := author_match hw (sep := some (a, b)) (next := authorLine w' rest) ⟨ha, hb, line_head hw' rest⟩ bf
    have e : authorLine w ((a, b, w') :: rest) = w.text ++ (sepText (some (a, b)) ++ authorLine w' rest) := by simp [authorLine, sepText]
    cases n with
    | zero => omega
    | succ n =>
      rw [e] at hn ⊢
      obtain ⟨ms, z, g1, g2, g3, g4⟩ := ih w' hw' (fun p hp => hr p (by simp [hp])) n bf' (by simp [sepText] at hn; omega)
      refine ⟨⟨0, ⟨bf', authorLine w' rest, cs⟩⟩ :: ms, z, ?_, g2, ?_, ?_⟩
      · rw [capturesIter]
        obtain ⟨c, l, e', _⟩ := text_head hw (sepText (some (a, b)) ++ authorLine w' rest)
        rw [e'] at h1 ⊢
        rw [search, h1]
        simp only [g1]
        rfl
      · intro m hm
        rcases List.mem_cons.1 hm with h | h
        · rw [h]
        · exact g3 m h
      · simp only [List.cons_append, List.mapM_cons, g4, h2, List.map_cons]
        rfl

theorem text_last {cl : Classes} {w : Written} (h : Ok cl w) : ∃ x c, w.text = x ++ [c] ∧ space c = false := by
  have e := text_eq h []
  rw [List.append_nil] at e
  cases hem : w.email with
  | none =>
    have hl : underscored w.last ≠ [] := by simp [underscored, h.lastNe]
    have := List.dropLast_concat_getLast hl
    rw [e, Written.em, hem, ← this]
    simp only [Option.map_none, emText, List.append_nil, ← List.append_assoc]
    exact ⟨_, _, rfl, h.1 |> fun _ => cl.word_space _ (underscored_last h _ (List.getLast_mem hl))⟩
  | some p =>
    rw [e, Written.em, hem]
    simp only [Option.map_some, emText, List.append_nil, ← List.append_assoc]
    exact ⟨_, '>', rfl, by decide⟩

theorem line_last {cl : Classes} : ∀ (rest : List (List Char × List Char × Written)) (w : Written), Ok cl w → (∀ p ∈ rest, Ok cl p.2.2) → ∃ x c, authorLine w rest = x ++ [c] ∧ space c = false := by
  intro rest
  induction rest with
  | nil => intro w hw _; exact text_last hw
  | cons p rest ih =>
    intro w hw hr
    obtain ⟨a, b, w'⟩ := p
    obtain ⟨x, c, e, hc⟩ := ih w' (hr (a, b, w') (by simp)) (fun p hp => hr p (by simp [hp]))
    refine ⟨w.text ++ a ++ ';' :: b ++ x, c, ?_, hc⟩
    rw [authorLine, e]
    simp

/-- the authors of a line are read -/
theorem line_read (cl : Classes) {w : Written} {rest : List (List Char × List Char × Written)} (hw : w.ok cl.word = true)
    (hr : ∀ p ∈ rest, p.1.all space = true ∧ p.2.1.all space = true ∧ p.2.2.ok cl.word = true) {trail : List Char} (ht : trail.all space = true) :
    parseAuthorLine cl.word (authorLine w rest ++ trail) = some (w.author :: rest.map (·.2.2.author), false) := by
  have hw' := ok_of hw
  have hr' : ∀ p ∈ rest, (∀ c ∈ p.1, space c = true) ∧ (∀ c ∈ p.2.1, space c = true) ∧ Ok cl p.2.2 := fun p hp =>
    ⟨List.all_eq_true.1 (hr p hp).1, List.all_eq_true.1 (hr p hp).2.1, ok_of (hr p hp).2.2⟩
  obtain ⟨x, c, e, hc⟩ := line_last rest w hw' (fun p hp => (hr' p hp).2.2)
  unfold parseAuthorLine
  simp only
  rw [trimEnd_append (List.all_eq_true.1 ht) (by rw [e]; simp [hc])]
  obtain ⟨ms, z, h1, h2, h3, h4⟩ := iter_line cl rest w hw' hr' _ [] (Nat.lt_succ_self _)
  rw [h1, h4]
  have hh : ∃ a, (ms ++ [z]).head? = some a ∧ a ∈ ms ++ [z] := by
    cases ms with
    | nil => exact ⟨z, rfl, by simp⟩
    | cons m ms => exact ⟨m, rfl, by simp⟩
  obtain ⟨a, ha, ham⟩ := hh
  rw [ha]
  simp [h2, h3 a ham]

theorem digit_lt {c : Char} (h : c.isDigit = true) : c.toNat < 128 := by
  simp only [Char.isDigit, Bool.and_eq_true, decide_eq_true_eq, ge_iff_le, UInt32.le_iff_toNat_le] at h
  have e : c.toNat = c.val.toNat := rfl
  have := h.2
  have e2 : '9'.val.toNat = 57 := rfl
  rw [e2] at this
  omega

theorem nl_space : space '\n' = true := by decide

theorem search_skip {r : Re} : ∀ (pre : List Char) (n : Nat) (bf l : List Char), (∀ i, i < pre.length → run word r (adv i ⟨bf, pre ++ l, []⟩) some = none) →
    search word r n bf (pre ++ l) = search word r (n + pre.length) (pre.reverse ++ bf) l := by
  intro pre
  induction pre with
  | nil => intro n bf l _; rfl
  | cons c pre ih =>
    intro n bf l h
    have h0 := h 0 (by simp)
    rw [adv_zero] at h0
    rw [List.cons_append] at h0 ⊢
    rw [search, h0]
    simp only
    rw [ih (n + 1) (c :: bf) l (fun i hi => ?_)]
    · simp [Nat.add_assoc, Nat.add_comm 1]
    · have := h (i + 1) (by simp; omega)
      have e : adv (i + 1) ⟨bf, c :: pre ++ l, []⟩ = adv i ⟨c :: bf, pre ++ l, []⟩ := by simp [adv]
      rw [e] at this
      exact this

theorem search_now {r : Re} {n : Nat} {bf l : List Char} {s : St} (h : run word r ⟨bf, l, []⟩ some = some s) : search word r n bf l = some ⟨n, s⟩ := by
  cases l with
  | nil => rw [search, h]; rfl
  | cons c cs => rw [search, h]

/-- the condition, in words -/
structure RevOk (cl : Classes) (r : Rev) : Prop where
  preOk : ∀ c ∈ r.pre, cl.digit c = false ∧ space c = false ∧ c ≠ ',' ∧ c ≠ ':'
  numHead : ∃ c cs, r.number = c :: cs ∧ c.isDigit = true
  numOk : ∀ c ∈ r.number, space c = false ∧ c ≠ ',' ∧ c ≠ ':'
  dateOk : ∀ a d, r.date = some (a, d) → (∀ c ∈ a, space c = true) ∧ d ≠ [] ∧ (∀ c ∈ d.head?, space c = false) ∧ ∀ c ∈ d, c ≠ ':'
  remOk : ∀ a d, r.remark = some (a, d) → (∀ c ∈ a, space c = true) ∧ d ≠ [] ∧ (∀ c ∈ d.head?, space c = false) ∧ ∀ c ∈ d, c ≠ '\n'

theorem revOk_of {cl : Classes} {r : Rev} (h : r.ok cl.digit = true) : RevOk cl r := by
  obtain ⟨pre, number, date, remark⟩ := r
  simp only [Rev.ok, Bool.and_eq_true] at h
  obtain ⟨⟨⟨⟨h1, h2⟩, h3⟩, h4⟩, h5⟩ := h
  refine ⟨fun c hc => ?_, ?_, fun c hc => ?_, ?_, ?_⟩
  · have := List.all_eq_true.1 h1 c hc
    simp only [Bool.and_eq_true, Bool.not_eq_true', decide_eq_true_eq] at this
    exact ⟨this.1.1.1, this.1.1.2, this.1.2, this.2⟩
  · cases number with
    | nil => simp at h2
    | cons c cs => exact ⟨c, cs, rfl, by simpa using h2⟩
  · have := List.all_eq_true.1 h3 c hc
    simp only [Bool.and_eq_true, Bool.not_eq_true', decide_eq_true_eq] at this
    exact ⟨this.1.1, this.1.2, this.2⟩
  · intro a d e
    simp only at e
    subst e
    simp only [Option.all_some, Bool.and_eq_true, List.all_eq_true, decide_eq_true_eq, Option.all_eq_true, Bool.not_eq_true'] at h4
    exact ⟨h4.1.1.1, h4.1.1.2, h4.1.2, h4.2⟩
  · intro a d e
    simp only at e
    subst e
    simp only [Option.all_some, Bool.and_eq_true, List.all_eq_true, decide_eq_true_eq, Option.all_eq_true, Bool.not_eq_true'] at h5
    exact ⟨h5.1.1.1, h5.1.1.2, h5.1.2, h5.2⟩

/-- the remark and the end -/
def remText : Option (List Char × List Char) → List Char
  | none => []
  | some (a, d) => ':' :: a ++ d

def dateText : Option (List Char × List Char) → List Char
  | none => []
  | some (a, d) => ',' :: a ++ d

def remRe : Re := .opt (.seq (.ch ':') (.seq (.star true (.set space)) (.cap 3 (.plus (.set (· ≠ '\n'))))))

theorem rem_run {cl : Classes} {r : Rev} (h : RevOk cl r) (bf : List Char) (cp : List (Nat × List Char)) :
    ∃ bf', run cl.word (.seq remRe .eol) ⟨bf, remText r.remark, cp⟩ some = some ⟨bf', [], (r.remark.map fun d => (3, d.2)).toList ++ cp⟩ := by
  rw [run]
  cases hr : r.remark with
  | none =>
    refine ⟨bf, ?_⟩
    simp only [remText]
    rw [remRe, opt_none]
    · rw [run, if_pos rfl]; rfl
    · rw [run]; exact run_ch_none (by simp)
  | some p =>
    obtain ⟨a, d⟩ := p
    obtain ⟨h1, h2, h3, h4⟩ := h.remOk a d hr
    refine ⟨d.reverse ++ (a.reverse ++ ':' :: bf), ?_⟩
    simp only [remText]
    rw [remRe]
    refine opt_some ?_
    rw [run, List.cons_append, run_ch, run]
    refine star_all h1 h3 ?_
    rw [run]
    have := plus_all (word := cl.word) (b := []) (bf := a.reverse ++ ':' :: bf) (cp := cp) (p := fun c => decide (c ≠ '\n')) h2 (fun c hc => by simp [h4 c hc]) (by simp)
      (k := fun s => (fun s => run cl.word Re.eol s some) { s with caps := (3, d.take (d.length - s.rest.length)) :: s.caps }) (r := ⟨d.reverse ++ (a.reverse ++ ':' :: bf), [], (3, d) :: cp⟩) (by
        simp [run])
    rw [List.append_nil] at this
    exact this

theorem rem_head (o : Option (List Char × List Char)) : ∀ c ∈ (remText o).head?, c = ':' := by
  cases o with
  | none => simp [remText]
  | some p => simp [remText]

theorem date_run {cl : Classes} {r : Rev} (h : RevOk cl r) (bf : List Char) (cp : List (Nat × List Char)) :
    ∃ bf', run cl.word (.seq (.opt (.seq (.ch ',') (.seq (.star true (.set space)) (.cap 2 (.plusLazy (.set (· ≠ ':'))))))) (.seq remRe .eol))
      ⟨bf, dateText r.date ++ remText r.remark, cp⟩ some = some ⟨bf', [], (r.remark.map fun d => (3, d.2)).toList ++ (r.date.map fun d => (2, d.2)).toList ++ cp⟩ := by
  rw [run]
  cases hd : r.date with
  | none =>
    obtain ⟨bf', e⟩ := rem_run h bf cp
    refine ⟨bf', ?_⟩
    simp only [dateText, List.nil_append]
    rw [opt_none]
    · simpa using e
    · rw [run]
      refine run_ch_none ?_
      intro hh
      have := rem_head r.remark ',' (by rw [Option.mem_def]; exact hh)
      revert this; decide
  | some p =>
    obtain ⟨a, d⟩ := p
    obtain ⟨h1, h2, h3, h4⟩ := h.dateOk a d hd
    obtain ⟨bf', e⟩ := rem_run h (d.reverse ++ (a.reverse ++ ',' :: bf)) ((2, d) :: cp)
    refine ⟨bf', ?_⟩
    simp only [dateText]
    refine opt_some ?_
    rw [run, List.append_assoc, List.cons_append, run_ch, run]
    refine star_all h1 ?_ ?_
    · cases d with
      | nil => exact absurd rfl h2
      | cons x xs => simpa using h3
    rw [run, run_plusLazy]
    have hsp : spanLen (fun c => decide (c ≠ ':')) (d ++ remText r.remark) = d.length :=
      spanLen_append (fun c hc => by simp [h4 c hc]) (fun c hc => by have := rem_head _ c hc; subst this; decide)
    simp only [hsp]
    cases hl : d.length with
    | zero => exact absurd (List.eq_nil_of_length_eq_zero hl) h2
    | succ k =>
      refine upFrom_skip (j := k) (Nat.le_refl _) (fun i hi => ?_) ?_
      · have hlt : 1 + i < d.length := by omega
        have hdr : (d ++ remText r.remark).drop (1 + i) = d[1 + i] :: (d.drop (1 + i + 1) ++ remText r.remark) := by
          rw [List.drop_append_of_le_length (by omega), List.drop_eq_getElem_cons hlt]; rfl
        simp only [adv, hdr]
        rw [run, remRe, opt_none]
        · rw [run, if_neg (by simp)]
        · rw [run]
          refine run_ch_none ?_
          simp only [List.head?_cons, ne_eq, Option.some.injEq]
          exact h4 _ (List.getElem_mem _)
      · rw [show 1 + k = d.length by omega, adv_append]
        simp only [cap_take]
        rw [e]
        simp

theorem text_rev (r : Rev) : r.text = (r.pre ++ r.number) ++ (dateText r.date ++ remText r.remark) := by
  obtain ⟨pre, number, date, remark⟩ := r
  cases date <;> cases remark <;> simp [Rev.text, dateText, remText]

theorem rev_match {cl : Classes} {r : Rev} (h : RevOk cl r) : ∃ bf', captures cl.word revisionRe r.text =
    some ⟨0, ⟨bf', [], (r.remark.map fun d => (3, d.2)).toList ++ (r.date.map fun d => (2, d.2)).toList ++ [(1, r.pre ++ r.number)]⟩⟩ := by
  obtain ⟨bf', e⟩ := date_run h ((r.pre ++ r.number).reverse ++ []) [(1, r.pre ++ r.number)]
  refine ⟨bf', search_now ?_⟩
  rw [text_rev, revisionRe, run, run, if_pos rfl, run, run]
  refine plus_all ?_ ?_ ?_ ?_
  · obtain ⟨c, cs, hc, _⟩ := h.numHead
    simp [hc]
  · intro c hc
    rcases List.mem_append.1 hc with hc | hc
    · simp [h.preOk c hc]
    · simp [h.numOk c hc]
  · intro c hc
    cases hd : r.date with
    | none =>
      rw [hd] at hc
      have := rem_head r.remark c hc
      subst this; decide
    | some p =>
      rw [hd] at hc
      simp only [dateText, List.cons_append, List.head?_cons, Option.mem_def, Option.some.injEq] at hc
      subst hc; decide
  · simp only [cap_take]
    exact e

theorem version_match {cl : Classes} {r : Rev} (h : RevOk cl r) : ∃ s, captures cl.word (versionRe cl.digit) (r.pre ++ r.number) = some ⟨r.pre.length, s⟩ := by
  obtain ⟨c, cs, hn, hc⟩ := h.numHead
  unfold captures
  rw [search_skip r.pre 0 [] r.number (fun i hi => ?_)]
  · rw [Nat.zero_add, hn]
    refine ⟨_, search_now (s := ⟨cs.reverse ++ c :: (r.pre.reverse ++ []), [], []⟩) ?_⟩
    have hcd : cl.digit c = true := by rw [cl.digit_ascii c (digit_lt hc), hc]
    rw [versionRe, run, run_set_cons, if_pos hcd, run]
    have := star_all (word := cl.word) (a := cs) (b := []) (bf := c :: (r.pre.reverse ++ [])) (cp := []) (p := fun c => decide (c ≠ '\n'))
      (k := fun s => run cl.word .eol s some) (r := ⟨cs.reverse ++ c :: (r.pre.reverse ++ []), [], []⟩) (fun x hx => by
        have := (h.numOk x (by rw [hn]; simp [hx])).1
        simp only [ne_eq, decide_eq_true_eq]
        rintro rfl
        rw [nl_space] at this; cases this) (by simp) (by simp [run])
    rw [List.append_nil cs] at this
    exact this
  · simp only [adv]
    rw [versionRe, run]
    refine run_set_none ?_
    intro x hx
    rw [List.drop_append_of_le_length (by omega)] at hx
    cases hd : r.pre.drop i with
    | nil => have := congrArg List.length hd; simp at this; omega
    | cons y ys =>
      rw [hd] at hx
      simp at hx
      subst hx
      exact (h.preOk y (List.mem_of_mem_drop (i := i) (by rw [hd]; simp))).1

theorem only_match {cl : Classes} {r : Rev} (h : RevOk cl r) : (captures cl.word (onlyRe cl.digit) (r.pre ++ r.number)).isSome = decide (r.pre = ['v'] ∧ 2 ≤ r.number.length) := by
  obtain ⟨c, cs, hn, hc⟩ := h.numHead
  have hcd : cl.digit c = true := by rw [cl.digit_ascii c (digit_lt hc), hc]
  have hbol : ∀ (l : List Char) (n : Nat) (x : Char) (bf : List Char), search cl.word (onlyRe cl.digit) n (x :: bf) l = none := by
    intro l
    induction l with
    | nil => intro n x bf; simp [search, onlyRe, run]
    | cons y ys ih => intro n x bf; rw [search]; simp [onlyRe, run]; exact ih _ _ _
  have hs : captures cl.word (onlyRe cl.digit) (r.pre ++ r.number) = (run cl.word (onlyRe cl.digit) ⟨[], r.pre ++ r.number, []⟩ some).map (⟨0, ·⟩) := by
    unfold captures
    cases hl : r.pre ++ r.number with
    | nil => rw [search]
    | cons x xs =>
      rw [search]
      cases run cl.word (onlyRe cl.digit) ⟨[], x :: xs, []⟩ some with
      | some s => rfl
      | none => simp only [Option.map_none]; exact hbol _ _ _ _
  rw [hs, Option.isSome_map, onlyRe, run, run, if_pos rfl, run]
  cases hp : r.pre with
  | nil =>
    rw [List.nil_append, hn, run_ch_none]
    · simp
    · simp only [List.head?_cons, ne_eq, Option.some.injEq]
      rintro rfl
      revert hc; decide
  | cons x xs =>
    by_cases hx : x = 'v'
    · subst hx
      rw [List.cons_append, run_ch, run, run, run]
      cases xs with
      | cons y ys =>
        rw [List.cons_append, run_set_cons, if_neg]
        · simp
        · have := (h.preOk y (by rw [hp]; simp)).1
          simp [this]
      | nil =>
        rw [List.nil_append, hn, run_set_cons, if_pos hcd]
        cases cs with
        | nil => rw [plus_none (by simp)]; simp
        | cons z zs =>
          have := plus_all (word := cl.word) (a := z :: zs) (b := []) (bf := [c, 'v']) (cp := []) (p := fun c => !space c) (by simp) (fun x hx => by
            have := (h.numOk x (by rw [hn]; simp [List.mem_cons.1 hx])).1
            simp [this]) (by simp) (k := fun s => run cl.word .eol { s with caps := (1, (c :: z :: zs).take ((c :: z :: zs).length - s.rest.length)) :: s.caps } some)
            (r := ⟨(z :: zs).reverse ++ [c, 'v'], [], [(1, c :: z :: zs)]⟩) (by simp [run])
          rw [List.append_nil] at this
          rw [this]
          simp
    · rw [List.cons_append, run_ch_none]
      · simp [hx]
      · simpa using hx

/-- a revision line is read -/
theorem rev_read {cl : Classes} {r : Rev} (h : r.ok cl.digit = true) : parseRevisionLine cl r.text =
    some (some ⟨if r.date.isSome ∨ r.remark.isSome ∨ (r.pre = ['v'] ∧ 2 ≤ r.number.length) then some r.number else none, r.date.map (·.2), r.remark.map (·.2)⟩) := by
  have h' := revOk_of h
  obtain ⟨bf', e⟩ := rev_match h'
  obtain ⟨s, ev⟩ := version_match h'
  have eo := only_match h'
  obtain ⟨c, cs, hn, hc⟩ := h'.numHead
  have hany : (r.pre ++ r.number).any Char.isDigit = true := by simp [hn, hc]
  unfold parseRevisionLine
  rw [e]
  have g1 : (Match.group ⟨0, ⟨bf', [], (r.remark.map fun d => (3, d.2)).toList ++ (r.date.map fun d => (2, d.2)).toList ++ [(1, r.pre ++ r.number)]⟩⟩ 1) = some (r.pre ++ r.number) := by
    cases r.remark <;> cases r.date <;> rfl
  have g2 : (Match.group ⟨0, ⟨bf', [], (r.remark.map fun d => (3, d.2)).toList ++ (r.date.map fun d => (2, d.2)).toList ++ [(1, r.pre ++ r.number)]⟩⟩ 2) = r.date.map (·.2) := by
    cases r.remark <;> cases r.date <;> rfl
  have g3 : (Match.group ⟨0, ⟨bf', [], (r.remark.map fun d => (3, d.2)).toList ++ (r.date.map fun d => (2, d.2)).toList ++ [(1, r.pre ++ r.number)]⟩⟩ 3) = r.remark.map (·.2) := by
    cases r.remark <;> cases r.date <;> rfl
  simp only [g1, g2, g3, hany, if_true, ev, eo, List.drop_left]
  cases r.date <;> cases r.remark <;> simp

/-! No panic. -/

theorem opt_dot {st x : St} {k : St → Option St} (h : run word (.opt (.ch '.')) st k = some x) : ∃ s, s.caps = st.caps ∧ (∃ a, st.rest = a ++ s.rest) ∧ k s = some x := by
  rw [Re.opt, run] at h
  rcases Option.or_eq_some_iff.1 h with h | h
  · obtain ⟨bf, l, cp⟩ := st
    cases l with
    | nil => rw [Re.ch, run_set_nil] at h; cases h
    | cons c cs =>
      rw [Re.ch, run_set_cons] at h
      split at h
      · exact ⟨⟨c :: bf, cs, cp⟩, rfl, ⟨[c], rfl⟩, h⟩
      · cases h
  · rw [run] at h
    exact ⟨st, rfl, ⟨[], rfl⟩, h.2⟩

theorem take_ne {a b c l : List Char} (ha : a ≠ []) (e : l = a ++ (b ++ c)) : l.take (l.length - c.length) ≠ [] := by
  subst e
  rw [← List.append_assoc, cap_take]
  simp [ha]

/-- a match has a first name and a last name -/
theorem match_names {st x : St} (h : run word authorRe st some = some x) : (∃ f, x.caps.lookup 1 = some f ∧ f ≠ []) ∧ ∃ l, x.caps.lookup 5 = some l ∧ l ≠ [] := by
  rw [authorRe, run, firstRe, run, run] at h
  obtain ⟨a, b, e, hne, _, h⟩ := plus_some h
  obtain ⟨s, hs1, ⟨c, hs2⟩, h⟩ := opt_dot h
  simp only at hs2
  refine ⟨?_, ?_⟩
  · refine ⟨st.rest.take (st.rest.length - s.rest.length), ?_, take_ne (b := c) hne (by rw [e, hs2])⟩
    obtain ⟨s2, h1, h2⟩ := run_keep 1 (.seq middleRe (.seq lastRe (.seq emailRe sepRe))) (by decide) _ _ _ h
    cases h2
    rw [h1]
    rfl
  · rw [run] at h
    obtain ⟨s2, _, h2⟩ := run_keep 0 middleRe (by decide) _ _ _ h
    rw [run, lastRe, run, run] at h2
    obtain ⟨s3, _, h3⟩ := run_keep 0 (.star true (.set space)) (by decide) _ _ _ h2
    rw [run] at h3
    obtain ⟨a, b, e, hne, _, h4⟩ := plus_some h3
    refine ⟨s3.rest.take (s3.rest.length - b.length), ?_, take_ne (b := []) hne (by rw [e]; simp)⟩
    obtain ⟨s5, h5, h6⟩ := run_keep 5 (.seq emailRe sepRe) (by decide) _ _ _ h4
    cases h6
    rw [h5]
    rfl

theorem deUnderscore_ne {l : List Char} (h : l ≠ []) : deUnderscore l ≠ [] := by
  simpa [deUnderscore] using h

theorem mapM_some {α β : Type} {f : α → Option β} {P : β → Prop} : ∀ (l : List α), (∀ a ∈ l, ∃ b, f a = some b ∧ P b) → ∃ bs, l.mapM f = some bs ∧ ∀ b ∈ bs, P b := by
  intro l
  induction l with
  | nil => intro _; exact ⟨[], rfl, by simp⟩
  | cons a l ih =>
    intro h
    obtain ⟨b, hb, hp⟩ := h a (by simp)
    obtain ⟨bs, hbs, hps⟩ := ih (fun a ha => h a (by simp [ha]))
    refine ⟨b :: bs, by simp [List.mapM_cons, hb, hbs], ?_⟩
    intro x hx
    rcases List.mem_cons.1 hx with h | h
    · subst h; exact hp
    · exact hps x h

theorem author_total (line : List Char) : ∃ as e, parseAuthorLine word line = some (as, e) ∧ ∀ a ∈ as, a.first ≠ [] ∧ a.last ≠ [] := by
  have hm := mapM_some (f := authorFrom) (P := fun a => a.first ≠ [] ∧ a.last ≠ []) (capturesIter word authorRe ((trimEnd line).length + 1) [] (trimEnd line)) (fun m hm => by
    obtain ⟨bf, l, h⟩ := iter_some _ _ _ m hm
    obtain ⟨⟨f, h1, h2⟩, x, h3, h4⟩ := match_names h
    exact ⟨⟨deUnderscore f, (m.group 3).map fun x => deUnderscore (trimEnd x), deUnderscore x, m.group 6⟩, by simp only [authorFrom, Match.group, h1, h3],
      deUnderscore_ne h2, deUnderscore_ne h4⟩)
  obtain ⟨as, h1, h2⟩ := hm
  unfold parseAuthorLine
  simp only [h1]
  split
  · exact ⟨as, _, rfl, h2⟩
  · exact ⟨as, _, rfl, h2⟩

theorem rev_total (cl : Classes) (src : List Char) : parseRevisionLine cl src ≠ none := by
  unfold parseRevisionLine
  split
  · simp
  · rename_i m hm
    obtain ⟨bf, l, h⟩ := search_some _ _ _ _ hm
    rw [revisionRe, run, run] at h
    split at h
    case isFalse => cases h
    rw [run, run] at h
    obtain ⟨a, b, e, hne, hall, h4⟩ := plus_some h
    simp only at e
    obtain ⟨s5, h5, h6⟩ := run_keep 1 _ (by decide) _ _ _ h4
    cases h6
    simp only [e, cap_take] at h5
    have hg : m.group 1 = some a := by rw [Match.group, h5]; rfl
    simp only [hg]
    split
    · rename_i hd
      have hv : (captures cl.word (versionRe cl.digit) a) ≠ none := by
        have : ∀ (l bf : List Char) (n : Nat), (∀ c ∈ l, c ≠ '\n') → l.any Char.isDigit = true → search cl.word (versionRe cl.digit) n bf l ≠ none := by
          intro l
          induction l with
          | nil => intro bf n _ h; simp at h
          | cons c cs ih =>
            intro bf n hc hd
            rw [search]
            split
            · simp
            · rename_i hno
              by_cases hcd : c.isDigit = true
              · exfalso
                have hcd' : cl.digit c = true := by rw [cl.digit_ascii c (digit_lt hcd), hcd]
                rw [versionRe, run, run_set_cons, if_pos hcd', run] at hno
                have := star_all (word := cl.word) (a := cs) (b := []) (bf := c :: bf) (cp := []) (p := fun c => decide (c ≠ '\n'))
                  (k := fun s => run cl.word .eol s some) (r := ⟨cs.reverse ++ c :: bf, [], []⟩) (fun x hx => by simp [hc x (by simp [hx])]) (by simp) (by simp [run])
                rw [List.append_nil cs] at this
                rw [this] at hno
                cases hno
              · exact ih _ _ (fun x hx => hc x (by simp [hx])) (by simpa [hcd] using hd)
        refine this a [] 0 (fun c hc => ?_) hd
        have := hall c hc
        rintro rfl
        revert this; decide
      split
      · exact absurd ‹_› hv
      · split <;> simp
    · simp

theorem search_ge {word : Char → Bool} {r : Re} : ∀ (l bf : List Char) (n : Nat) (m : Match), search word r n bf l = some m → n ≤ m.skipped := by
  intro l
  induction l with
  | nil =>
    intro bf n m h
    rw [search] at h
    cases hr : run word r ⟨bf, [], []⟩ some with
    | none => rw [hr] at h; cases h
    | some s => rw [hr] at h; cases h; simp
  | cons c cs ih =>
    intro bf n m h
    rw [search] at h
    split at h
    · cases h; simp
    · have := ih _ _ _ h; omega

theorem reported {word : Char → Bool} {c : Char} {l : List Char} (hc : space c = true ∨ c = '<' ∨ c = '.') {as : List Author} {e : Bool}
    (h : parseAuthorLine word (c :: l) = some (as, e)) : e = true := by
  have hrun : ∀ l : List Char, (∀ d ∈ l.head?, d = c) → run word authorRe ⟨[], l, []⟩ some = none := by
    intro l hl
    rw [authorRe, run, firstRe, run, run]
    refine plus_none ?_
    intro d hd
    have := hl d hd
    subst this
    rcases hc with h | h | h <;> simp [h]
  have hsrc : ∀ d ∈ (trimEnd (c :: l)).head?, d = c := by
    intro d hd
    have hp : trimEnd (c :: l) <+: c :: l := by
      rw [trimEnd]
      conv => rhs; rw [← List.reverse_reverse (c :: l)]
      exact List.reverse_prefix.2 (List.dropWhile_suffix _)
    cases ht : trimEnd (c :: l) with
    | nil => rw [ht] at hd; simp at hd
    | cons x xs =>
      rw [ht] at hp hd
      simp at hd
      rw [← hd]
      exact (List.cons_prefix_cons.1 hp).1
  have hms : ∀ (n : Nat) (src : List Char), (∀ d ∈ src.head?, d = c) → ∀ a, (capturesIter word authorRe (n + 1) [] src).head? = some a → a.skipped > 0 := by
    intro n src hs a ha
    rw [capturesIter] at ha
    cases hq : search word authorRe 0 [] src with
    | none => rw [hq] at ha; simp at ha
    | some m =>
      rw [hq] at ha
      simp at ha
      subst ha
      cases src with
      | nil => rw [search, hrun [] (by simp)] at hq; cases hq
      | cons d ds =>
        rw [search, hrun (d :: ds) hs] at hq
        have := search_ge _ _ _ _ hq
        omega
  unfold parseAuthorLine at h
  simp only at h
  split at h
  · cases h
  · split at h
    · rename_i a z ha hz
      have := hms _ _ hsrc a ha
      cases h
      simp [this]
    · cases h; rfl

end Verif.AuthorLine

import Verif.Model.AttrEntry
import Verif.Spec.AttrEntry
import Verif.Lemmas.Regex
import Verif.Lemmas.AuthorLine
import Verif.Lemmas.Meta
/-! Lemmas: attribute entries. -/
namespace Verif.AttrEntry
open Regex Spec

/-- no line end in a text -/
def OneLine (v : List Char) : Prop := '\n' ∉ v ∧ '\r' ∉ v

theorem takeLine_append {v r : List Char} (hv : OneLine v) (hr : atEol r = true) : takeLine (v ++ r) = (v, r) := by
  induction v with
  | nil =>
    cases r with
    | nil => rfl
    | cons c r => rw [List.nil_append, takeLine, if_pos hr]
  | cons c v ih =>
    obtain ⟨h1, h2⟩ := hv
    simp only [List.mem_cons, not_or] at h1 h2
    have : atEol (c :: (v ++ r)) = false := by
      have e1 : c ≠ '\n' := fun e => h1.1 e.symm
      have e2 : c ≠ '\r' := fun e => h2.1 e.symm
      simp [atEol, e1, e2]
    rw [List.cons_append, takeLine, if_neg (by simp [this]), ih ⟨h1.2, h2.2⟩]

theorem takeLine_eq (l : List Char) : (takeLine l).1 ++ (takeLine l).2 = l := by
  induction l with
  | nil => rfl
  | cons c l ih =>
    rw [takeLine]
    split
    · rfl
    · simp [ih]

theorem takeLine_eol (l : List Char) : atEol (takeLine l).2 = true := by
  induction l with
  | nil => rfl
  | cons c l ih =>
    rw [takeLine]
    split
    · assumption
    · exact ih

theorem back_suffix {s : List Char} : lit " \\" <:+ s ++ lit " \\" := List.suffix_append _ _

/-- the end of a text -/
theorem not_back {s : List Char} (h : s.getLast? ≠ some '\\') : ¬ lit " \\" <:+ s := by
  rintro ⟨t, rfl⟩
  exact h (by simp [lit])

theorem hard_iff (s : List Char) : lit " + " <:+ s ++ [' '] ↔ [' ', '+'] <:+ s := by
  constructor
  · rintro ⟨t, ht⟩
    have : (t ++ [' ', '+']) ++ [' '] = s ++ [' '] := by rw [← ht]; simp [lit]
    exact ⟨t, List.append_cancel_right this⟩
  · rintro ⟨t, rfl⟩
    exact ⟨t, by simp [lit]⟩

/-- the lines of an entry -/
theorem joinLines_written (rest : List Char) (hrest : rest = [] ∨ rest.head? = some '\n') : ∀ (vs : List (List Char)) (s : List Char) (n : Nat),
    vs ≠ [] → (∀ v ∈ vs, OneLine v) → (∀ v ∈ vs.getLast?, v.getLast? ≠ some '\\') → s.getLast? ≠ some '\\' → (written vs).length < n →
    joinLines n (s ++ (takeLine (written vs ++ rest)).1) (takeLine (written vs ++ rest)).2 = some (joined s vs, rest) := by
  have he : atEol rest = true := by
    rcases hrest with rfl | h
    · rfl
    · cases rest with
      | nil => simp at h
      | cons c r => simp at h; simp [atEol, h]
  intro vs
  induction vs with
  | nil => intro s n h; exact absurd rfl h
  | cons v vs ih =>
    intro s n _ h1 h2 hs hn
    obtain ⟨n, rfl⟩ : ∃ m, n = m + 1 := ⟨n - 1, by omega⟩
    cases vs with
    | nil =>
      rw [written, takeLine_append (h1 v (by simp)) he, joined, joinLines, if_neg]
      refine not_back ?_
      have := h2 v (by simp)
      rw [List.getLast?_append]
      cases hv : v.getLast? with
      | none => simpa using hs
      | some c => rw [hv] at this; simpa using this
    | cons w vs =>
      have hv := h1 v (by simp)
      have e1 : written (v :: w :: vs) ++ rest = (v ++ [' ', '\\']) ++ ('\n' :: (written (w :: vs) ++ rest)) := by simp [written]
      have hv' : OneLine (v ++ [' ', '\\']) := ⟨by simp [hv.1], by simp [hv.2]⟩
      rw [e1, takeLine_append hv' (by simp [atEol]), joinLines]
      simp only
      have e2 : s ++ (v ++ [' ', '\\']) = (s ++ v) ++ lit " \\" := by simp [lit]
      have e3 : ((s ++ v) ++ lit " \\").dropLast = (s ++ v) ++ [' '] := by simp [lit]
      rw [e2, if_pos back_suffix, if_neg (by simp), e3]
      have e4 : ('\n' :: (written (w :: vs) ++ rest))[1]? ≠ some '\r' := by
        simp only [List.getElem?_cons_succ, ← List.head?_eq_getElem?]
        intro h
        have hm : '\r' ∈ written (w :: vs) ++ rest := List.mem_of_mem_head? h
        have hw : '\r' ∉ written (w :: vs) := by
          have : ∀ (l : List (List Char)), (∀ v ∈ l, OneLine v) → '\r' ∉ written l := by
            intro l
            fun_induction written l with
            | case1 => simp
            | case2 v => intro h; exact (h v (by simp)).2
            | case3 v w vs ih =>
              intro h
              have := ih (fun v hv => h v (by simp at hv ⊢; exact .inr hv))
              simp [(h v (by simp)).2, this]
          exact this _ (fun v hv => h1 v (by simp at hv ⊢; exact .inr hv))
        cases hwr : written (w :: vs) with
        | nil =>
          rw [hwr, List.nil_append] at h
          rcases hrest with rfl | hr
          · simp at h
          · rw [hr] at h; simp at h
        | cons c cs =>
          rw [hwr] at h hw
          simp at h hw
          exact hw.1 h.symm
      rw [if_neg e4, List.drop_one, List.tail_cons]
      have e5 : (if lit " + " <:+ s ++ v ++ [' '] then (s ++ v ++ [' ']).dropLast ++ ['\n'] else s ++ v ++ [' ']) =
          s ++ v ++ (if [' ', '+'] <:+ s ++ v then ['\n'] else [' ']) := by
        by_cases hh : [' ', '+'] <:+ s ++ v
        · rw [if_pos ((hard_iff _).2 hh), if_pos hh]; simp
        · rw [if_neg (fun h => hh ((hard_iff _).1 h)), if_neg hh]
      rw [e5, joined]
      refine ih _ n (by simp) (fun v hv => h1 v (List.mem_cons_of_mem _ hv)) ?_ ?_ ?_
      · intro x hx; exact h2 x (by rw [List.getLast?_cons_cons]; exact hx)
      · split <;> simp
      · simp only [written, List.length_append, List.length_cons, List.length_nil] at hn; omega

theorem joined_prefix (p : List Char) (vs : List (List Char)) : ∃ t, joined p vs = p ++ t := by
  fun_induction joined p vs with
  | case1 t => exact ⟨[], by simp⟩
  | case2 t v => exact ⟨v, rfl⟩
  | case3 t v w vs ih =>
    obtain ⟨x, hx⟩ := ih
    exact ⟨_, by rw [hx]; simp only [List.append_assoc]; rfl⟩

/-- what stands before a colon does not make a text end with a space and a plus sign -/
theorem hard_prefix (p t : List Char) (hp : p.getLast? = some ':') : [' ', '+'] <:+ p ++ t ↔ [' ', '+'] <:+ t := by
  constructor
  · intro h
    rw [← List.reverse_prefix] at h ⊢
    rw [List.reverse_append] at h
    have hp' : p.reverse.head? = some ':' := by rw [List.head?_reverse]; exact hp
    match ht : t.reverse with
    | [] =>
      rw [ht] at h
      cases hq : p.reverse with
      | nil => rw [hq] at hp'; simp at hp'
      | cons c cs => rw [hq] at hp' h; simp at hp'; subst hp'; simp [List.cons_prefix_cons] at h
    | [a] =>
      rw [ht] at h
      cases hq : p.reverse with
      | nil => rw [hq] at hp'; simp at hp'
      | cons c cs => rw [hq] at hp' h; simp at hp'; subst hp'; simp [List.cons_prefix_cons] at h
    | a :: b :: l =>
      rw [ht] at h
      simp only [List.cons_append, List.reverse_cons, List.reverse_nil, List.nil_append, List.cons_prefix_cons, List.nil_prefix, and_true] at h ⊢
      exact h
  · rintro ⟨x, rfl⟩; exact ⟨p ++ x, by simp⟩

theorem joined_append (p : List Char) (hp : p.getLast? = some ':') (t : List Char) (vs : List (List Char)) : joined (p ++ t) vs = p ++ joined t vs := by
  fun_induction joined t vs with
  | case1 t => rfl
  | case2 t v => simp [joined]
  | case3 t v w vs ih =>
    rw [joined]
    have : (if [' ', '+'] <:+ p ++ t ++ v then ['\n'] else [' ']) = (if [' ', '+'] <:+ t ++ v then ['\n'] else [' ']) := by
      rw [List.append_assoc]
      by_cases h : [' ', '+'] <:+ t ++ v
      · rw [if_pos h, if_pos ((hard_prefix p _ hp).2 h)]
      · rw [if_neg h, if_neg (fun h' => h ((hard_prefix p _ hp).1 h'))]
    rw [this, ← ih]
    congr 1
    simp

theorem scanName_plain {n after : List Char} (hn : ∀ c ∈ n, nameChar c = true) : scanName (n ++ ':' :: after) = some (n, false, after) := by
  induction n with
  | nil => rfl
  | cons c n ih => rw [List.cons_append, scanName, if_pos (hn c (by simp)), ih (fun c hc => hn c (by simp [hc]))]

theorem scanName_bang {n after : List Char} (hn : ∀ c ∈ n, nameChar c = true) : scanName (n ++ '!' :: ':' :: after) = some (n, true, after) := by
  induction n with
  | nil => rfl
  | cons c n ih => rw [List.cons_append, scanName, if_pos (hn c (by simp)), ih (fun c hc => hn c (by simp [hc]))]

theorem scanName_some {l n after : List Char} {b : Bool} (h : scanName l = some (n, b, after)) :
    l = n ++ (if b then ['!'] else []) ++ ':' :: after ∧ ∀ c ∈ n, nameChar c = true := by
  induction l generalizing n b after with
  | nil => cases h
  | cons c l ih =>
    rw [scanName] at h
    split at h
    · rename_i hc
      cases hl : scanName l with
      | none => rw [hl] at h; cases h
      | some x =>
        obtain ⟨n', b', r'⟩ := x
        rw [hl] at h
        simp only [Option.some.injEq, Prod.mk.injEq] at h
        obtain ⟨rfl, rfl, rfl⟩ := h
        obtain ⟨h1, h2⟩ := ih hl
        refine ⟨by rw [h1]; simp, ?_⟩
        intro x hx
        rcases List.mem_cons.1 hx with h | h
        · rw [h]; exact hc
        · exact h2 x h
    · split at h
      · rename_i hc
        split at h
        · rename_i hh
          simp only [Option.some.injEq, Prod.mk.injEq] at h
          obtain ⟨rfl, rfl, rfl⟩ := h
          cases l with
          | nil => simp at hh
          | cons d l => simp at hh; subst hh hc; simp
        · cases h
      · split at h
        · rename_i hc
          simp only [Option.some.injEq, Prod.mk.injEq] at h
          obtain ⟨rfl, rfl, rfl⟩ := h
          subst hc; simp
        · cases h

theorem trim_trimmed {t v : List Char} (h : Trimmed t v) : trim t = v := by
  obtain ⟨a, b, rfl, ha, hb, h1, h2⟩ := h
  unfold trim
  rw [List.append_assoc, List.dropWhile_append_of_pos (fun c hc => ha c hc)]
  cases v with
  | nil =>
    rw [List.nil_append]
    have : b.dropWhile space = [] := by
      have := List.dropWhile_append_of_pos (p := space) (l₁ := b) (l₂ := []) (fun c hc => hb c hc)
      simpa using this
    rw [this]; rfl
  | cons x xs =>
    rw [List.cons_append, List.dropWhile_cons, if_neg (by simp [h1 x (by simp)]), ← List.cons_append]
    exact AuthorLine.trimEnd_append hb h2

theorem mem_joined (c : Char) (hc : c ≠ '\n' ∧ c ≠ ' ') (t : List Char) (vs : List (List Char)) (ht : c ∉ t) (h : ∀ v ∈ vs, c ∉ v) : c ∉ joined t vs := by
  fun_induction joined t vs with
  | case1 t => exact ht
  | case2 t v => simp [ht, h v (by simp)]
  | case3 t v w vs ih =>
    refine ih ?_ (fun v hv => h v (by simp at hv ⊢; exact .inr hv))
    simp only [List.mem_append, not_or]
    refine ⟨⟨ht, h v (by simp)⟩, ?_⟩
    split <;> simp [hc.1, hc.2]

theorem name_chars {n : List Char} (h : Name n) : ∃ c u, n = c :: u ∧ nameStart c = true ∧ (∀ c ∈ u, nameChar c = true) ∧ c ≠ '!' := by
  obtain ⟨h1, h2, h3⟩ := h
  cases n with
  | nil => exact absurd rfl h1
  | cons c u =>
    refine ⟨c, u, rfl, ?_, ?_, ?_⟩
    · rcases h3 c (by simp) with h | h | h
      · simp [nameStart, h]
      · simp [nameStart, h]
      · simp [h] at h2
    · intro d hd
      rcases h3 d (by simp [hd]) with h | h | h <;> simp [nameChar, h]
    · rintro rfl
      rcases h3 '!' (by simp) with h | h | h
      · revert h; decide
      · revert h; decide
      · revert h; decide

/-- the first line, for the three forms -/
theorem attrDef_open (cl : Classes) (inHeader : Bool) (look : List Char → Option AttrValue) (f : Form) {n after : List Char} (hn : Name n) (h4 : (opening f n ++ after)[3]? ≠ none) :
    attrDef cl inHeader look (opening f n ++ after) =
      match joinLines (after.length + 1) (opening f n ++ (takeLine after).1) (takeLine after).2 with
      | none => .panic
      | some (s, rest) =>
        let t := s.drop (opening f n).length
        let v := trim t
        .ok ⟨n.map Char.toLower,
          if v = [] then .bool (f = .set)
          else .string (String.ofList (special cl (if t.contains '{' && inHeader then replaceVals cl.word look v else v))),
          t.contains '{', decide (f ≠ .set) && decide (v ≠ []), rest⟩ := by
  obtain ⟨c, u, rfl, hc, hu, hb⟩ := name_chars hn
  unfold attrDef
  rw [if_neg h4]
  have hlen : (opening f (c :: u) ++ after).length - after.length = (opening f (c :: u)).length := by simp
  have htk : (opening f (c :: u) ++ after).take (opening f (c :: u)).length = opening f (c :: u) := by simp
  cases f with
  | set =>
    have h1 : (opening .set (c :: u) ++ after)[1]? ≠ some '!' := by simp [opening, hb]
    have h2 : (opening .set (c :: u) ++ after).drop 1 = c :: (u ++ ':' :: after) := by simp [opening]
    simp only [h1, if_false, h2, hc, if_true, scanName_plain hu, hlen, htk]
    cases joinLines (after.length + 1) (opening .set (c :: u) ++ (takeLine after).1) (takeLine after).2 <;> simp
  | unsetBefore =>
    have h1 : (opening .unsetBefore (c :: u) ++ after)[1]? = some '!' := by simp [opening]
    have h2 : (opening .unsetBefore (c :: u) ++ after).drop 2 = c :: (u ++ ':' :: after) := by simp [opening]
    simp only [h1, if_true, h2, hc, scanName_plain hu, hlen, htk]
    cases joinLines (after.length + 1) (opening .unsetBefore (c :: u) ++ (takeLine after).1) (takeLine after).2 <;> simp
  | unsetAfter =>
    have h1 : (opening .unsetAfter (c :: u) ++ after)[1]? ≠ some '!' := by simp [opening, hb]
    have h2 : (opening .unsetAfter (c :: u) ++ after).drop 1 = c :: (u ++ '!' :: ':' :: after) := by simp [opening]
    simp only [h1, if_false, h2, hc, if_true, scanName_bang hu, hlen, htk]
    cases joinLines (after.length + 1) (opening .unsetAfter (c :: u) ++ (takeLine after).1) (takeLine after).2 <;> simp

theorem opening_last (f : Form) (n : List Char) : (opening f n).getLast? = some ':' := by
  cases f <;> simp [opening, List.getLast?_cons, List.getLast?_append]

/-- an entry over one or more lines -/
theorem attrDef_written (cl : Classes) (inHeader : Bool) (look : List Char → Option AttrValue) (f : Form) {n rest v : List Char} {vs : List (List Char)} (hn : Name n)
    (hvs : vs ≠ []) (h1 : ∀ v ∈ vs, OneLine v) (h2 : ∀ v ∈ vs.getLast?, v.getLast? ≠ some '\\')
    (hrest : rest = [] ∨ rest.head? = some '\n') (h4 : 4 ≤ (opening f n ++ written vs ++ rest).length) (ht : Trimmed (joined [] vs) v) :
    attrDef cl inHeader look (opening f n ++ written vs ++ rest) =
      .ok ⟨n.map Char.toLower, if v = [] then .bool (f = .set)
          else .string (String.ofList (special cl (if (joined [] vs).contains '{' && inHeader then replaceVals cl.word look v else v))),
        (joined [] vs).contains '{', decide (f ≠ .set) && decide (v ≠ []), rest⟩ := by
  rw [List.append_assoc] at h4 ⊢
  rw [attrDef_open cl inHeader look f hn (by simp only [ne_eq, List.getElem?_eq_none_iff]; omega)]
  rw [joinLines_written rest hrest vs (opening f n) _ hvs h1 h2 (by rw [opening_last]; decide) (by simp; omega)]
  have : joined (opening f n) vs = opening f n ++ joined [] vs := by
    have := joined_append (opening f n) (opening_last f n) [] vs
    rwa [List.append_nil] at this
  simp only [this, List.drop_left, trim_trimmed ht]

/-- an entry on one line, whatever the line ends with -/
theorem attrDef_line (cl : Classes) (inHeader : Bool) (look : List Char → Option AttrValue) (f : Form) {n rest v line : List Char} (hn : Name n)
    (h1 : OneLine line) (h2 : line.getLast? ≠ some '\\') (hrest : atEol rest = true) (h4 : 4 ≤ (opening f n ++ line ++ rest).length) (ht : Trimmed line v) :
    attrDef cl inHeader look (opening f n ++ line ++ rest) =
      .ok ⟨n.map Char.toLower, if v = [] then .bool (f = .set)
          else .string (String.ofList (special cl (if line.contains '{' && inHeader then replaceVals cl.word look v else v))),
        line.contains '{', decide (f ≠ .set) && decide (v ≠ []), rest⟩ := by
  rw [List.append_assoc] at h4 ⊢
  rw [attrDef_open cl inHeader look f hn (by simp only [ne_eq, List.getElem?_eq_none_iff]; omega), takeLine_append h1 hrest, joinLines, if_neg]
  · simp only [List.drop_left, trim_trimmed ht]
  · refine not_back ?_
    rw [List.getLast?_append]
    cases hl : line.getLast? with
    | none => simp [opening_last]
    | some c => rw [hl] at h2; simpa using h2

theorem special_plain (cl : Classes) {v : List Char} (h : ¬ lit "pass:" <+: v) : special cl v = v := by
  rw [special, if_neg h]

theorem takeLine_no (l : List Char) : '\n' ∉ (takeLine l).1 := by
  induction l with
  | nil => simp [takeLine]
  | cons c l ih =>
    rw [takeLine]
    split
    · simp
    · rename_i h
      simp only [List.mem_cons, not_or]
      refine ⟨?_, ih⟩
      rintro rfl
      simp [atEol] at h

theorem takeLine_len (l : List Char) : (takeLine l).2.length ≤ l.length := by
  have := congrArg List.length (takeLine_eq l)
  simp at this; omega

theorem last_of_suffix {a b : List Char} (h : a <:+ b) (ha : a ≠ []) : a.getLast? = b.getLast? := by
  obtain ⟨t, rfl⟩ := h
  rw [List.getLast?_append]
  cases hl : a.getLast? with
  | none => exact absurd (by simpa using hl) ha
  | some c => rfl

/-- the lines of an entry end at a line end, and there is a panic only at the end of a source that does not end with one -/
theorem joinLines_some : ∀ (n : Nat) (s r : List Char), r.length < n → atEol r = true →
    (∀ x, joinLines n s r = some x → x.2 <:+ r ∧ atEol x.2 = true) ∧
    ((lit " \\" <:+ s → r ≠ []) → (r ≠ [] → r.getLast? = some '\n') → joinLines n s r ≠ none) := by
  intro n
  induction n with
  | zero => intro s r h; omega
  | succ n ih =>
    intro s r hn he
    rw [joinLines]
    split
    · rename_i hs
      simp only
      split
      · rename_i hr; exact ⟨by (intro x h; cases h), fun h => absurd hr (h hs)⟩
      · rename_i hr
        obtain ⟨r1, hr1, hlen, hr1'⟩ : ∃ r1, (if r[1]? = some '\r' then r.drop 2 else r.drop 1) = r1 ∧ r1.length < r.length ∧ r1 <:+ r := by
          refine ⟨_, rfl, ?_, ?_⟩
          · have := List.length_pos_iff.2 hr
            split <;> simp <;> omega
          · split <;> exact List.drop_suffix _ _
        rw [hr1]
        obtain ⟨s', hs'⟩ : ∃ s', (if lit " + " <:+ s.dropLast then s.dropLast.dropLast ++ ['\n'] else s.dropLast) = s' := ⟨_, rfl⟩
        have hl : s'.getLast? ≠ some '\\' := by
          rw [← hs']
          split
          · simp
          · obtain ⟨t, rfl⟩ := hs
            simp [lit]
        rw [hs']
        have hsuf : (takeLine r1).2 <:+ r1 := ⟨_, takeLine_eq r1⟩
        obtain ⟨i1, i2⟩ := ih (s' ++ (takeLine r1).1) (takeLine r1).2 (by have := takeLine_len r1; omega) (takeLine_eol r1)
        refine ⟨fun x hx => ⟨(i1 x hx).1.trans (hsuf.trans hr1'), (i1 x hx).2⟩, ?_⟩
        intro _ hlast
        have hlast := hlast hr
        refine i2 ?_ ?_
        · intro hb h0
          have e := takeLine_eq r1
          rw [h0, List.append_nil] at e
          have hne : (takeLine r1).1 ≠ [] := by
            intro h; rw [h, List.append_nil] at hb; exact not_back hl hb
          have hr1ne : r1 ≠ [] := by rw [← e]; exact hne
          have h2 : r1.getLast? = some '\n' := by rw [last_of_suffix hr1' hr1ne]; exact hlast
          rw [← e] at h2
          exact takeLine_no r1 (List.mem_of_getLast? h2)
        · intro hne
          rw [last_of_suffix (hsuf.trans hr1') hne]; exact hlast
    · exact ⟨by (intro x h; cases h; exact ⟨List.suffix_refl _, he⟩), by simp⟩

variable {word : Char → Bool}

theorem ref_none {bf l : List Char} {k : St → Option St} (h : l.head? ≠ some '{') (cs : List (Nat × List Char)) : run word refRe ⟨bf, l, cs⟩ k = none := by
  rw [refRe, run]; exact run_ch_none h

theorem ref_run {n rest : List Char} (hn : n ≠ []) (h : ∀ c ∈ n, space c = false ∧ c ≠ '{' ∧ c ≠ '}') (bf : List Char) :
    ∃ s, run word refRe ⟨bf, '{' :: n ++ '}' :: rest, []⟩ some = some s ∧ s.rest = rest ∧ s.caps.lookup 1 = some n := by
  refine ⟨⟨'}' :: (n.reverse ++ '{' :: bf), rest, [(1, n)]⟩, ?_, rfl, rfl⟩
  rw [refRe, run, List.cons_append, run_ch, run, run]
  refine plus_all hn (fun c hc => ?_) (by intro c hc; simp at hc; subst hc; decide) ?_
  · obtain ⟨h1, _, h3⟩ := h c hc
    simp [h1, h3]
  · rw [AuthorLine.cap_take, run_ch]

/-- a literal -/
theorem run_word (s : List Char) (bf r : List Char) (cs : List (Nat × List Char)) (k : St → Option St) :
    run word (s.foldr (fun c r => Re.seq (.ch c) r) .eps) ⟨bf, s ++ r, cs⟩ k = k ⟨s.reverse ++ bf, r, cs⟩ := by
  induction s generalizing bf with
  | nil => rfl
  | cons c s ih => rw [List.foldr, run, List.cons_append, run_ch, ih]; simp

theorem search_none {l : List Char} (h : '{' ∉ l) : ∀ (n : Nat) (bf : List Char), search word refRe n bf l = none := by
  induction l with
  | nil => intro n bf; rw [search, ref_none (by simp)]; rfl
  | cons c l ih =>
    intro n bf
    simp only [List.mem_cons, not_or] at h
    rw [search, ref_none (by simpa using fun e : c = '{' => h.1 e.symm)]
    exact ih h.2 _ _

theorem search_ref {pre l : List Char} (h : '{' ∉ pre) (n : Nat) (bf : List Char) :
    search word refRe n bf (pre ++ l) = search word refRe (n + pre.length) (pre.reverse ++ bf) l := by
  refine AuthorLine.search_skip pre n bf l (fun i hi => ?_)
  rw [adv]
  refine ref_none ?_ _
  rw [List.drop_append_of_le_length (by omega), List.drop_eq_getElem_cons hi]
  simp only [List.cons_append, List.head?_cons, ne_eq, Option.some.injEq]
  intro e
  exact h (e ▸ List.getElem_mem _)

/-- the references in a text are replaced -/
theorem replace_pieces (look : List Char → Option AttrValue) : ∀ (ps : List Piece), (∀ p ∈ ps, p.Ok) → ∀ (pre : List Char) (n : Nat) (bf : List Char), '{' ∉ pre →
    (pre ++ (ps.map Piece.source).flatten).length < n →
    replaceAll word refRe (fun m => valueOf ((m.group 1).bind look)) n bf (pre ++ (ps.map Piece.source).flatten) = pre ++ (ps.map (Piece.value look)).flatten := by
  intro ps
  induction ps with
  | nil =>
    intro _ pre n bf hp hn
    obtain ⟨n, rfl⟩ : ∃ m, n = m + 1 := ⟨n - 1, by omega⟩
    rw [replaceAll, search_none (by simpa using hp)]
    rfl
  | cons p ps ih =>
    intro hok pre n bf hp hn
    cases p with
    | text s =>
      have := ih (fun p hp => hok p (List.mem_cons_of_mem _ hp)) (pre ++ s) n bf
        (by have : '{' ∉ s := hok (.text s) (by simp)
            simp [hp, this]) (by simpa [Piece.source] using hn)
      simpa [Piece.source, Piece.value] using this
    | ref m =>
      obtain ⟨h1, h2⟩ : Piece.Ok (.ref m) := hok _ (by simp)
      obtain ⟨n, rfl⟩ : ∃ m, n = m + 1 := ⟨n - 1, by omega⟩
      have e : pre ++ ((Piece.ref m :: ps).map Piece.source).flatten = pre ++ ('{' :: m ++ '}' :: (ps.map Piece.source).flatten) := by simp [Piece.source]
      rw [e] at hn ⊢
      obtain ⟨s, hs, hr, hc⟩ := ref_run (word := word) (rest := (ps.map Piece.source).flatten) h1 h2 (pre.reverse ++ bf)
      rw [replaceAll, search_ref hp, AuthorLine.search_now hs]
      simp only [Nat.zero_add, hr, Match.group, hc, Option.bind_some, List.take_left]
      have := ih (fun p hp => hok p (List.mem_cons_of_mem _ hp)) [] n s.before (by simp) (by simp at hn ⊢; omega)
      simp only [List.nil_append, Match.group] at this
      rw [this]
      have hv : valueOf (look m) = Piece.value look (.ref m) := by
        unfold valueOf Piece.value
        rcases hl : look m with _ | (x | x) <;> simp only [hl]
      simp only [List.map_cons, List.flatten_cons, hv, List.append_assoc]

theorem replaceVals_pieces (look : List Char → Option AttrValue) (ps : List Piece) (h : ∀ p ∈ ps, p.Ok) :
    replaceVals word look (ps.map Piece.source).flatten = (ps.map (Piece.value look)).flatten := by
  have := replace_pieces (word := word) look ps h [] ((ps.map Piece.source).flatten.length + 1) [] (by simp) (by simp)
  simpa only [replaceVals, List.nil_append] using this

theorem words_blank {a l : List Char} (ha : ∀ c ∈ a, space c = true) : words [] (a ++ l) = words [] l := by
  induction a with
  | nil => rfl
  | cons c a ih => rw [List.cons_append, words, if_pos (ha c (by simp)), if_pos rfl, ih (fun c hc => ha c (by simp [hc]))]

theorem words_word {w l : List Char} (hw : ∀ c ∈ w, space c = false) (p : List Char) : words p (w ++ l) = words (p ++ w) l := by
  induction w generalizing p with
  | nil => simp
  | cons c w ih =>
    rw [List.cons_append, words, if_neg (by simp [hw c (by simp)]), ih (fun c hc => hw c (by simp [hc]))]
    simp

theorem words_end {w l : List Char} (hw : w ≠ []) (hl : ∀ c ∈ l.head?, space c = true) : words w l = w :: words [] l := by
  cases l with
  | nil => simp [words, hw]
  | cons c l =>
    have := hl c (by simp)
    rw [words, if_pos this, if_neg hw, words, if_pos this, if_pos rfl]

theorem words_eq {ws : List (List Char)} {s : List Char} (h : Words ws s) : words [] s = ws := by
  induction h with
  | last a w b hb hw h =>
    rw [List.append_assoc, words_blank (fun c hc => hb c (by simp [hc])), words_word h, List.nil_append, words_end hw]
    · have := words_blank (a := b) (l := []) (fun c hc => hb c (by simp [hc]))
      rw [List.append_nil] at this
      rw [this]; rfl
    · intro c hc; exact hb c (by simp [List.mem_of_mem_head? hc])
  | cons a w ws s ha hw h hs _ ih =>
    rw [List.append_assoc, words_blank ha, words_word h, List.nil_append, words_end hw hs, ih]

theorem joinSpace_eq (ws : List (List Char)) : joinSpace ws = spaced ws := by
  fun_induction joinSpace ws with
  | case1 => rfl
  | case2 => rfl
  | case3 w v l ih => rw [spaced, ih]

theorem words_mem {ws : List (List Char)} {s : List Char} (h : Words ws s) : ∀ w ∈ ws, w ≠ [] ∧ ∀ c ∈ w, space c = false := by
  induction h with
  | last a w b hb hw h => intro x hx; simp at hx; subst hx; exact ⟨hw, h⟩
  | cons a w ws s ha hw h hs _ ih =>
    intro x hx
    rcases List.mem_cons.1 hx with rfl | hx
    · exact ⟨hw, h⟩
    · exact ih x hx

theorem words_some {p l : List Char} (h : p ≠ [] ∨ ∃ c ∈ l, space c = false) : ∃ w ws, words p l = w :: ws ∧ ∀ x ∈ w :: ws, x ≠ [] := by
  have hall : ∀ (l p : List Char), ∀ x ∈ words p l, x ≠ [] := by
    intro l p
    fun_induction words p l with
    | case1 => simp
    | case2 w h => simp [h]
    | case3 c l hc ih => exact ih
    | case4 w c l hc hw ih => intro x hx; exact (List.mem_cons.1 hx).elim (fun e => e ▸ hw) (ih x)
    | case5 w c l hc ih => exact ih
  have hne : words p l ≠ [] := by
    fun_induction words p l with
    | case1 => simp at h
    | case2 w h => simp
    | case3 c l hc ih => refine ih ?_; simp [hc] at h; exact .inr h
    | case4 w c l hc hw ih => simp
    | case5 w c l hc ih => exact ih (.inl (by simp))
  obtain ⟨w, ws, hw⟩ := List.exists_cons_of_ne_nil hne
  exact ⟨w, ws, hw, by rw [← hw]; exact hall l p⟩

theorem spaced_last (ms : List (List Char)) (l : List Char) (h : ms ≠ []) : spaced (ms ++ [l]) = spaced ms ++ ' ' :: l := by
  fun_induction spaced ms with
  | case1 => exact absurd rfl h
  | case2 w => rfl
  | case3 w v ms ih =>
    have := ih (by simp)
    simp only [List.cons_append] at this ⊢
    rw [spaced, this]
    simp

theorem authorFromAttr_words {first last : List Char} {mids : List (List Char)} {s : List Char} (h : Words (first :: mids ++ [last]) s) :
    authorFromAttr (.string (String.ofList s)) = some ⟨names first, if mids = [] then none else some (names (spaced mids)), names last, none⟩ := by
  have hw := words_eq h
  have hs : s ≠ [] := by rintro rfl; simp [words] at hw
  have hne : String.ofList s ≠ "" := by
    intro e
    have := congrArg String.toList e
    simp at this; exact hs this
  simp only [authorFromAttr, AttrValue.str, if_neg hne, String.toList_ofList, hw]
  have e1 : (first :: mids ++ [last])[(first :: mids ++ [last]).length - 1]? = some last := by simp
  have e2 : ((first :: mids ++ [last]).drop 1).take ((first :: mids ++ [last]).length - 2) = mids := by simp
  have e3 : ((first :: mids ++ [last]).length > 2) ↔ mids ≠ [] := by
    rw [← List.length_pos_iff]; simp
  rw [e1, e2, joinSpace_eq]
  by_cases hm : mids = []
  · subst hm; simp [names, AuthorLine.deUnderscore]
  · rw [if_pos (e3.2 hm), if_neg hm]; rfl

end Verif.AttrEntry

namespace Verif
open DocumentMeta

theorem insertString_plain (m : DocumentMeta) (k v : String) (hk : k ∉ ["attribute-missing", "attribute-undefined", "showtitle", "notitle"]) (j : String) :
    (m.insertStringAttr k v).headerAttrs j = if j = k then some (.string v) else m.headerAttrs j := by
  rw [insertStringAttr, attrsInsert_plain _ _ _ hk]; rfl
theorem insertOpt_plain (m : DocumentMeta) (k : String) (v : Option String) (hk : k ∉ ["attribute-missing", "attribute-undefined", "showtitle", "notitle"]) (j : String) :
    (m.insertOptAttr k v).headerAttrs j = if j = k ∧ v ≠ none then v.map .string else m.headerAttrs j := by
  cases v with
  | none => simp [insertOptAttr]
  | some v => simp [insertOptAttr, insertString_plain _ _ _ hk]
/-- the first author -/
theorem addAuthor_first (m : DocumentMeta) (a : Author) (hm : m.authors = []) (h1 : a.first ≠ "") (h2 : a.last ≠ "") :
    ∃ m', m.addAuthor a = some m' ∧ m'.authors = [a] ∧ m'.headerAttrs "firstname" = some (.string a.first) ∧ m'.headerAttrs "lastname" = some (.string a.last) ∧
      (∀ x, a.middle = some x → m'.headerAttrs "middlename" = some (.string x)) ∧ m'.headerAttrs "author" = some (.string a.fullname) := by
  obtain ⟨ini, hi⟩ : ∃ i, a.initials = some i := by
    unfold Author.initials
    have e1 : a.first.toList ≠ [] := by simpa using h1
    have e2 : a.last.toList ≠ [] := by simpa using h2
    cases hf : a.first.toList with
    | nil => exact absurd hf e1
    | cons c cs => cases hl : a.last.toList with
      | nil => exact absurd hl e2
      | cons d ds => exact ⟨_, rfl⟩
  have hn : toString (([] : List Author).length + 1) = "1" := rfl
  rw [addAuthor, hi]
  refine ⟨_, rfl, by simp [hm], ?_⟩
  simp only [hm, List.isEmpty_nil, if_true, hn]
  have k1 : "author_" ++ "1" = "author_1" := by decide
  have k2 : "email_" ++ "1" = "email_1" := by decide
  have k3 : "lastname_" ++ "1" = "lastname_1" := by decide
  have k4 : "middlename_" ++ "1" = "middlename_1" := by decide
  have k5 : "firstname_" ++ "1" = "firstname_1" := by decide
  have k6 : "authorinitials_" ++ "1" = "authorinitials_1" := by decide
  rw [k1, k2, k3, k4, k5, k6]
  refine ⟨?_, ?_, ?_, ?_⟩
  · split <;> simp [insertString_plain, insertOpt_plain]
  · split <;> simp [insertString_plain, insertOpt_plain]
  · intro x hx
    split <;> simp [insertString_plain, insertOpt_plain, hx]
  · split <;> simp [insertString_plain, insertOpt_plain]

end Verif

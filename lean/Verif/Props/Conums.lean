import Verif.Spec.Conums
/-! C127: callouts of verbatim lines. -/
namespace Verif.Props
open Verif.Conums

private theorem takeWhile_all {α : Type} {p : α → Bool} {l : List α} (h : ∀ x ∈ l, p x = true) : l.takeWhile p = l := by
  induction l with
  | nil => rfl
  | cons a l ih => rw [List.takeWhile_cons, if_pos (h a (by simp)), ih fun x hx => h x (by simp [hx])]

private theorem node_text (s : List Char) : (Node.text s).chars = s := rfl
private theorem node_special (c : Char) : (Node.special c).chars = [c] := rfl
private theorem node_tuck (s : List Char) : (Node.tuck s).chars = s := rfl
private theorem node_callout (s : List Char) : (Node.callout s).chars = '<' :: s ++ ['>'] := rfl
private theorem tok_special (c : Char) : (Tok.special c).chars = [c] := rfl
private theorem tok_white (s : List Char) : (Tok.white s).chars = s := rfl
private theorem tok_mark (s : List Char) : (Tok.mark s).chars = s := rfl
private theorem tok_conum (s : List Char) : (Tok.conum s).chars = '<' :: s ++ ['>'] := rfl
private theorem special_none (c : Char) : (Node.special c).callout? = none := rfl

private theorem only_iff (l : List Tok) : onlyConums l = l.all fun t => t.isWhite || t.conum?.isSome := by
  induction l with
  | nil => rfl
  | cons t l ih => cases t <;> simp [onlyConums, ih, Tok.isWhite, Tok.conum?]

private theorem atEnd_all (l : List Tok) (h : onlyConums l = true) : atEnd l = l.filterMap (·.conum?) := by
  rw [only_iff] at h
  unfold atEnd
  rw [takeWhile_all, List.reverse_reverse]
  intro t ht
  exact List.all_eq_true.mp h t (List.mem_reverse.mp ht)

private theorem atEnd_cons (t : Tok) (l : List Tok) :
    atEnd (t :: l) = if onlyConums l then t.conum?.toList ++ atEnd l else atEnd l := by
  by_cases h : onlyConums l = true
  · rw [if_pos h]
    by_cases ht : (t.isWhite || t.conum?.isSome) = true
    · have h2 : onlyConums (t :: l) = true := by
        rw [only_iff] at h ⊢
        simp only [List.all_cons, ht, h, Bool.and_self]
      rw [atEnd_all _ h, atEnd_all _ h2, List.filterMap_cons]
      cases t.conum? <;> rfl
    · have hn : t.conum? = none := by
        cases hc : t.conum? with
        | none => rfl
        | some x => simp [hc] at ht
      rw [hn]
      have ha : ∀ u ∈ l.reverse, (fun t : Tok => t.isWhite || t.conum?.isSome) u = true := fun u hu => by
        rw [only_iff] at h
        exact List.all_eq_true.mp h u (List.mem_reverse.mp hu)
      have hz : [t].takeWhile (fun t : Tok => t.isWhite || t.conum?.isSome) = [] := by
        rw [List.takeWhile_cons, if_neg ht]
      unfold atEnd
      rw [List.reverse_cons, List.takeWhile_append_of_pos ha, hz, takeWhile_all ha, List.append_nil]
      rfl
  · rw [if_neg h]
    unfold atEnd
    rw [List.reverse_cons, List.takeWhile_append]
    rw [if_neg]
    intro hl
    apply h
    rw [only_iff, List.all_eq_true]
    intro u hu
    have := List.takeWhile_prefix (fun t : Tok => t.isWhite || t.conum?.isSome) (l := l.reverse)
    have e := this.eq_of_length hl
    rw [← List.mem_reverse, ← e] at hu
    exact List.all_eq_true.mp (List.all_takeWhile (p := fun t : Tok => t.isWhite || t.conum?.isSome)) u hu

private theorem commit_callout (t : List Char) : (commit t).filterMap (·.callout?) = [] := by
  unfold commit
  split <;> rfl

private theorem commit_chars (t : List Char) : (commit t).flatMap (·.chars) = t := by
  unfold commit
  split
  · simp_all
  · simp [Node.chars]

private theorem recover_callout (cm : Option (List Char)) (t : List Char) : (recover cm t).1.filterMap (·.callout?) = [] := by
  unfold recover
  split
  · rfl
  · dsimp only
    generalize (if t.getLast? = some ' ' then [' '] else []) = z
    split
    · rw [List.filterMap_append, commit_callout]; rfl
    · rfl

/-- **C127** (which): the callouts of a verbatim line are exactly those at its end, in order; `<1>` elsewhere is none. -/
theorem C127_which (cm : Option (List Char)) (l : List Tok) : (line cm l).filterMap (·.callout?) = atEnd l := by
  unfold line
  generalize ([] : List Char) = t
  fun_induction run cm t l with
  | case1 t => exact commit_callout t
  | case2 t s r ih => rw [ih, atEnd_cons]; split <;> rfl
  | case3 t s r ih => rw [ih, atEnd_cons]; split <;> rfl
  | case4 t c r ih =>
    rw [List.filterMap_append, commit_callout, List.nil_append, List.filterMap_cons]
    show (run cm [] r).filterMap _ = _
    rw [ih, atEnd_cons]; split <;> rfl
  | case5 t s w r h ih =>
    rw [List.filterMap_append, commit_callout, List.nil_append, List.filterMap_cons]
    show (run cm [] r).filterMap _ = _
    rw [ih, atEnd_cons, atEnd_cons]
    simp [Tok.conum?]
  | case6 t s w r h ih =>
    rw [ih, atEnd_cons, atEnd_cons]
    simp [Tok.conum?]
  | case7 t s r h ih => rw [ih, atEnd_cons]; split <;> rfl
  | case8 t s r h ih =>
    rw [List.filterMap_append, List.filterMap_append, recover_callout, commit_callout, List.nil_append, List.nil_append, List.filterMap_cons]
    show s :: (run cm [] r).filterMap _ = _
    rw [ih, atEnd_cons, if_pos h]
    rfl
  | case9 t s r h ih =>
    simp only [List.filterMap_append, commit_callout, List.nil_append, List.filterMap_cons, special_none, List.cons_append]
    rw [atEnd_cons, if_neg h]
    exact ih

private theorem byteLen_append (a b : List Char) : byteLen (a ++ b) = byteLen a + byteLen b := by
  simp [byteLen]

private theorem byteLen_blank (l : List Char) (h : ∀ c ∈ l, blank c = true) : byteLen l = l.length := by
  induction l with
  | nil => rfl
  | cons c l ih =>
    have hc := h c (by simp)
    have : c.utf8Size = 1 := by
      simp only [blank, Bool.or_eq_true, decide_eq_true_eq] at hc
      rcases hc with e | e <;> subst e <;> decide
    have e := ih (fun x hx => h x (by simp [hx]))
    simp only [byteLen, List.map_cons, List.sum_cons, List.length_cons] at e ⊢
    omega

private theorem trim_keeps (l : List Char) (h : ∀ c ∈ l, isWs c = true → blank c = true) :
    (collectTrimEnd l).filter (fun c => !blank c) = l.filter (fun c => !blank c) := by
  unfold collectTrimEnd
  split
  · have e : l = trimEnd l ++ (l.reverse.takeWhile isWs).reverse := by
      unfold trimEnd
      rw [← List.reverse_append, List.takeWhile_append_dropWhile, List.reverse_reverse]
    generalize hs : (l.reverse.takeWhile isWs).reverse = s at e
    have hb : ∀ c ∈ s, blank c = true := by
      intro c hc
      rw [← hs, List.mem_reverse] at hc
      exact h c (List.mem_reverse.mp ((List.takeWhile_prefix isWs).subset hc)) (List.all_eq_true.mp List.all_takeWhile c hc)
    generalize trimEnd l = k at e ⊢
    subst e
    rw [byteLen_append, byteLen_blank s hb]
    have : (k ++ s).length - (byteLen k + s.length - byteLen k) = k.length := by
      rw [List.length_append]; omega
    rw [this, List.take_left, List.filter_append]
    have z : s.filter (fun c => !blank c) = [] := by
      rw [List.filter_eq_nil_iff]
      intro c hc
      simp [hb c hc]
    rw [z, List.append_nil]
  · rfl

private theorem recover_chars (cm : Option (List Char)) (hc : ∀ c ∈ cm.getD [], c.utf8Size = 1) (t : List Char) :
    (recover cm t).1.flatMap (·.chars) ++ (recover cm t).2 = t := by
  unfold recover
  split
  · rfl
  · rename_i cm
    dsimp only
    have hb : ∀ c ∈ cm ++ (if t.getLast? = some ' ' then [' '] else []), c.utf8Size = 1 := by
      intro c hm
      rcases List.mem_append.mp hm with x | x
      · exact hc c x
      · split at x
        · rw [List.mem_singleton.mp x]; decide
        · cases x
    generalize cm ++ (if t.getLast? = some ' ' then [' '] else []) = z at hb ⊢
    split
    · rename_i hs
      obtain ⟨k, hk⟩ := hs
      have hl : byteLen z = z.length := by
        clear hk
        induction z with
        | nil => rfl
        | cons c z ih =>
          have e := ih (fun x hx => hb x (by simp [hx]))
          have e1 := hb c (by simp)
          simp only [byteLen, List.map_cons, List.sum_cons, List.length_cons] at e ⊢
          omega
      subst hk
      rw [hl, List.length_append, Nat.add_sub_cancel, List.take_left, List.flatMap_append, commit_chars]
      simp [node_tuck]
    · rfl

/-- **C127** (text): nothing but blanks is lost: the line shows all its other characters, in order. Partial: the line has no whitespace but blanks and tabs,
and the `line-comment` attribute is ASCII if there is one. -/
theorem C127_text_partial (cm : Option (List Char)) (hc : ∀ c ∈ cm.getD [], c.utf8Size = 1) (l : List Tok) (h : ∀ t ∈ l, Plain t) :
    ((line cm l).flatMap (·.chars)).filter (fun c => !blank c) = (l.flatMap (·.chars)).filter (fun c => !blank c) := by
  suffices ∀ t : List Char, (∀ c ∈ t, isWs c = true → blank c = true) →
      ((run cm t l).flatMap (·.chars)).filter (fun c => !blank c) = (t ++ l.flatMap (·.chars)).filter (fun c => !blank c) from this [] nofun
  intro t ht
  have white : ∀ w : List Char, Plain (.white w) → w.filter (fun c => !blank c) = [] := fun w hw => by
    rw [List.filter_eq_nil_iff]
    intro c hc
    simp [hw.2 rfl c hc]
  have app : ∀ a b : List Char, (∀ c ∈ a, isWs c = true → blank c = true) → (∀ c ∈ b, isWs c = true → blank c = true) →
      ∀ c ∈ a ++ b, isWs c = true → blank c = true := fun a b ha hb c hc => by
    rcases List.mem_append.mp hc with x | x
    · exact ha c x
    · exact hb c x
  fun_induction run cm t l with
  | case1 t => simp [commit_chars]
  | case2 t s r ih =>
    rw [ih (fun x hx => h x (by simp [hx])) (app _ _ ht (h (.text s) (by simp)).1)]
    simp [Tok.chars]
  | case3 t s r ih =>
    rw [ih (fun x hx => h x (by simp [hx])) (app _ _ ht (h (.white s) (by simp)).1)]
    simp [Tok.chars]
  | case4 t c r ih =>
    have := ih (fun x hx => h x (by simp [hx])) nofun
    simp only [List.flatMap_append, commit_chars, List.flatMap_cons, List.filter_append, this, node_special, node_tuck, node_callout, tok_special, tok_white, tok_mark, tok_conum, List.nil_append]
  | case5 t s w r ho ih =>
    have := ih (fun x hx => h x (by simp [hx])) nofun
    simp only [List.flatMap_append, commit_chars, List.flatMap_cons, List.filter_append, this, node_special, node_tuck, node_callout, tok_special, tok_white, tok_mark, tok_conum, List.nil_append,
      white w (h _ (by simp))]
    simp [blank]
  | case6 t s w r ho ih =>
    rw [ih (fun x hx => h x (by simp [hx])) (app _ _ (app _ _ ht (h (.mark s) (by simp)).1) (h (.white w) (by simp)).1)]
    simp [Tok.chars]
  | case7 t s r hn ih =>
    rw [ih (fun x hx => h x (by simp [hx])) (app _ _ ht (h (.mark s) (by simp)).1)]
    simp [Tok.chars]
  | case8 t s r ho ih =>
    have := ih (fun x hx => h x (by simp [hx])) nofun
    have hr := recover_chars cm hc t
    have hk := trim_keeps (recover cm t).2 (fun c hm => ht c (by rw [← hr]; exact List.mem_append_right _ hm))
    simp only [List.flatMap_append, commit_chars, List.flatMap_cons, List.filter_append, this, node_callout, tok_conum, List.nil_append, hk]
    rw [← List.filter_append, hr]
  | case9 t s r ho ih =>
    have := ih (fun x hx => h x (by simp [hx])) nofun
    simp only [List.flatMap_append, commit_chars, List.flatMap_cons, List.cons_append, List.filter_append, this, node_special, node_tuck, node_callout, tok_special, tok_white, tok_mark, tok_conum, List.nil_append,
      List.append_assoc]
    simp only [List.filter_cons, List.filter_append, List.singleton_append, this, List.nil_append]

/-- **C127** (code): a line that does not end with a callout or a blank is shown as it is, blanks and `<1>` included. -/
theorem C127_code (cm : Option (List Char)) (l : List Tok) (z : Tok) (hz : z.isWhite = false ∧ z.conum? = none) :
    (line cm (l ++ [z])).flatMap (·.chars) = (l ++ [z]).flatMap (·.chars) := by
  have no : ∀ r : List Tok, z ∈ r → onlyConums r = false := fun r hr => by
    rw [only_iff, List.all_eq_false]
    exact ⟨z, hr, by simp [hz.1, hz.2]⟩
  suffices ∀ (m : List Tok) (t : List Char), m = [] ∨ m.getLast? = some z → (run cm t m).flatMap (·.chars) = t ++ m.flatMap (·.chars) from
    this (l ++ [z]) [] (.inr (by simp))
  intro m t hm
  have tail : ∀ (a : Tok) (r : List Tok), (a :: r = [] ∨ (a :: r).getLast? = some z) → r = [] ∨ r.getLast? = some z := fun a r h => by
    cases r with
    | nil => exact .inl rfl
    | cons b r => simpa using h
  have only : ∀ r : List Tok, (r = [] ∨ r.getLast? = some z) → onlyConums r = true → r = [] := fun r h ho => by
    rcases h with h | h
    · exact h
    · rw [no r (List.mem_of_getLast? h)] at ho; cases ho
  fun_induction run cm t m with
  | case1 t => simp [commit_chars]
  | case2 t s r ih => rw [ih (tail _ _ hm)]; simp [Tok.chars]
  | case3 t s r ih => rw [ih (tail _ _ hm)]; simp [Tok.chars]
  | case4 t c r ih =>
    simp only [List.flatMap_append, commit_chars, List.flatMap_cons, ih (tail _ _ hm), node_special, node_tuck, node_callout, tok_special, tok_white, tok_mark, tok_conum, List.nil_append]
  | case5 t s w r ho ih =>
    have e := only r (tail _ _ (tail _ _ hm)) ho
    subst e
    simp only [List.cons_ne_nil, false_or, List.getLast?_cons_cons, List.getLast?_singleton, Option.some.injEq] at hm
    rw [← hm] at hz
    cases hz.1
  | case6 t s w r ho ih => rw [ih (tail _ _ (tail _ _ hm))]; simp [Tok.chars]
  | case7 t s r hn ih => rw [ih (tail _ _ hm)]; simp [Tok.chars]
  | case8 t s r ho ih =>
    have e := only r (tail _ _ hm) ho
    subst e
    simp only [List.cons_ne_nil, false_or, List.getLast?_singleton, Option.some.injEq] at hm
    rw [← hm] at hz
    cases hz.2
  | case9 t s r ho ih =>
    simp only [List.flatMap_append, commit_chars, List.flatMap_cons, List.cons_append, ih (tail _ _ hm), node_special, node_tuck, node_callout, tok_special, tok_white, tok_mark, tok_conum, List.nil_append,
      List.append_assoc]

/-- `a <1> b // <2> <.>` -/
private def someLine : List Tok :=
  [.text ['a'], .white [' '], .conum ['1'], .white [' '], .text ['b'], .white [' '], .mark ['/', '/'], .white [' '], .conum ['2'], .white [' '], .conum ['.']]

example : line none someLine = [.text ['a', ' '], .special '<', .text ['1'], .special '>', .text [' ', 'b', ' '], .tuck ['/', '/', ' '], .callout ['2'],
    .callout ['.']] ∧ atEnd someLine = [['2'], ['.']] := by decide

example : ∀ t ∈ someLine, Plain t := by unfold Plain; decide

example : line (some ['-', '-']) [.text ['a', ' ', '-', '-'], .white [' '], .conum ['1']] = [.text ['a', ' '], .tuck ['-', '-', ' '], .callout ['1']] ∧
    ∀ c ∈ (some ['-', '-']).getD [], c.utf8Size = 1 := by decide

/-- **C127 violated** (other whitespace): after a no-break space and a blank, a callout takes the character before them away: `ab`, no-break space,
blank, `<1>` shows as `a` and the callout. -/
theorem C127_text_violated : line none [.text ['a', 'b', Char.ofNat 0xA0], .white [' '], .conum ['1']] = [.text ['a'], .callout ['1']] := by decide

/-- **C127 violated** (`line-comment=—`): a comment mark that is not ASCII takes the code before it away: `abc — <1>` shows as `ab`, the mark and the
callout. -/
theorem C127_comment_violated :
    line (some ['—']) [.text ['a', 'b', 'c'], .white [' '], .text ['—'], .white [' '], .conum ['1']] =
      [.text ['a', 'b'], .tuck ['—', ' '], .callout ['1']] := by decide

end Verif.Props

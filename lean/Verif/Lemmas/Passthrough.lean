import Verif.Spec.Passthrough
import Verif.Lemmas.IncludeText
namespace Verif.Passthrough
open Verif IncludeText

/-! ### gluing -/

theorem glue_cons {c : List (List Tk)} (h : c ≠ []) (l : List Tk) (ms : List (List Tk)) : glue (l :: c) ms = l :: glue c ms := by
  cases c with
  | nil => exact absurd rfl h
  | cons a b => rfl

theorem glue_ne_nil (c : List (List Tk)) {ms : List (List Tk)} (h : ms ≠ []) : glue c ms ≠ [] := by
  cases c with
  | nil => exact h
  | cons a c =>
    cases c with
    | nil => cases ms with
      | nil => exact absurd rfl h
      | cons m ms => simp [glue]
    | cons b c => simp [glue]

theorem glue_single (l m : List Tk) (ms : List (List Tk)) : glue [l] (m :: ms) = (l ++ m) :: ms := rfl

theorem write_ne_nil (ps : List Piece) : write ps ≠ [] := by
  cases ps with
  | nil => simp [write]
  | cons p ps =>
    cases p <;> simp only [write]
    · exact glue_ne_nil _ (write_ne_nil ps)
    · exact glue_ne_nil _ (glue_ne_nil _ (glue_ne_nil _ (write_ne_nil ps)))
    · exact glue_ne_nil _ (glue_ne_nil _ (glue_ne_nil _ (write_ne_nil ps)))

/-! ### finding the end -/

theorem indexOfPluses_none {k : Nat} (hk : 1 ≤ k) {l : List Tk} (h : ∀ t ∈ l, t.kind ≠ .Plus) : indexOfPluses k l = none := by
  induction l with
  | nil => rfl
  | cons t ts ih =>
    rw [indexOfPluses, if_neg, ih fun x hx => h x (by simp [hx])]
    · rfl
    · obtain ⟨k, rfl⟩ : ∃ m, k = m + 1 := ⟨k - 1, by omega⟩
      simp [h t (by simp)]

theorem indexOfPluses_here {k : Nat} (hk : 1 ≤ k) {l : List Tk} (h : ∀ t ∈ l, t.kind ≠ .Plus) (r : List Tk) : indexOfPluses k (l ++ (pluses k ++ r)) = some l.length := by
  obtain ⟨k, rfl⟩ : ∃ m, k = m + 1 := ⟨k - 1, by omega⟩
  induction l with
  | nil =>
    rw [List.nil_append, pluses, List.replicate_succ, List.cons_append, indexOfPluses, if_pos]
    · rfl
    · constructor
      · simp
      · rw [← List.cons_append, ← List.replicate_succ, List.take_append_of_le_length (by simp)]
        simp
  | cons t ts ih =>
    rw [List.cons_append, indexOfPluses, if_neg, ih fun x hx => h x (by simp [hx])]
    · rfl
    · simp [h t (by simp)]

/-- fewer pluses and then another token do not matter -/
theorem indexOfPluses_skip {k j : Nat} (hj : j < k) {l : List Tk} (hne : l ≠ []) (h : ∀ t, l.head? = some t → t.kind ≠ .Plus) :
    indexOfPluses k (pluses j ++ l) = (indexOfPluses k l).map (· + j) := by
  induction j with
  | zero => simp [pluses]
  | succ j ih =>
    rw [pluses, List.replicate_succ, List.cons_append, indexOfPluses, if_neg]
    · rw [show List.replicate j (⟨.Plus, ['+']⟩ : Tk) = pluses j from rfl, ih (by omega)]
      cases indexOfPluses k l <;> simp; omega
    · rintro ⟨_, h2⟩
      rw [← List.cons_append, ← List.replicate_succ, List.take_append] at h2
      simp only [List.all_append, Bool.and_eq_true, List.length_replicate] at h2
      obtain ⟨_, h2⟩ := h2
      cases hl : l with
      | nil => exact hne hl
      | cons t ts =>
        have := h t (by rw [hl]; rfl)
        rw [hl, show k - (j + 1) = (k - (j + 1) - 1) + 1 from by omega] at h2
        simp [this] at h2

theorem findIdx_plus {l : List Tk} (h : ∀ t ∈ l, t.kind ≠ .Plus) (r : List Tk) :
    (l ++ (pluses 1 ++ r)).findIdx? (fun t => t.kind = .Plus && t.len = 1) = some l.length := by
  induction l with
  | nil => simp [pluses, List.findIdx?_cons, Tk.len]
  | cons t ts ih =>
    rw [List.cons_append, List.findIdx?_cons, ih fun x hx => h x (by simp [hx])]
    simp [h t (by simp)]

theorem constrainedEnd_none {l : List Tk} (h : ∀ t ∈ l, t.kind ≠ .Plus) : constrainedEnd l = none := by
  have : l.findIdx? (fun t => t.kind = .Plus && t.len = 1) = none := by
    rw [List.findIdx?_eq_none_iff]; intro t ht; simp [h t ht]
  simp [constrainedEnd, this]

theorem constrainedEnd_here {l : List Tk} (hne : l ≠ []) (h : ∀ t ∈ l, t.kind ≠ .Plus) (r : List Tk) (hlast : ∀ t, l.getLast? = some t → wsish t = false)
    (hr : ∀ t, r.head? = some t → t.kind ≠ .Word) : constrainedEnd (l ++ (pluses 1 ++ r)) = some l.length := by
  unfold constrainedEnd
  rw [findIdx_plus h]
  obtain ⟨n, hn⟩ : ∃ n, l.length = n + 1 := ⟨l.length - 1, by have := List.length_pos_iff.2 hne; omega⟩
  rw [hn]
  simp only
  rw [if_neg]
  simp only [Bool.or_eq_true, not_or, Bool.not_eq_true]
  constructor
  · have : (l ++ (pluses 1 ++ r))[n + 2]? = r.head? := by
      rw [List.getElem?_append_right (by omega), hn]
      simp [pluses, List.head?_eq_getElem?]
    rw [this]
    cases hh : r.head? with
    | none => rfl
    | some t => simp [hr t hh]
  · have : (l ++ (pluses 1 ++ r))[n]? = l.getLast? := by
      rw [List.getElem?_append_left (by omega), List.getLast?_eq_getElem?, hn]; rfl
    rw [this]
    cases hh : l.getLast? with
    | none => rfl
    | some t => simp [hlast t hh]

theorem isDelimiter_false {delim : Tk → Bool} {l : List Tk} (h : 2 ≤ l.length) : isDelimiter delim l = false := by
  match l, h with
  | a :: b :: c, _ => rfl

theorem plusesLater_content {delim : Tk → Bool} {k : Nat} (hk : 1 ≤ k) (orig : Nat) (m : List Tk) (ms rest : List (List Tk)) : ∀ (c : List (List Tk)) (n : Nat), contentOk c →
    (∀ l ∈ c, ∀ t ∈ l, t.kind ≠ .Plus) → (∀ l ∈ c, isDelimiter delim l = false) →
    plusesLater delim k orig n (glue c ((pluses k ++ m) :: ms) ++ rest) = some (n + c.flatten.length) := by
  intro c
  induction c with
  | nil => intro n h; exact absurd rfl h.1
  | cons l c ih =>
    intro n h hp hd
    have hl := h.2 l (by simp)
    have hlen := List.length_pos_iff.2 hl
    cases hc : c with
    | nil =>
      rw [glue_single, List.cons_append, plusesLater, isDelimiter_false, indexOfPluses_here hk (hp l (by simp))]
      · simp only [Bool.false_eq_true, if_false]
        rw [if_neg (by omega)]
        simp
      · simp [pluses]; omega
    | cons a b =>
      rw [← hc, glue_cons (by simp [hc]), List.cons_append, plusesLater, hd l (by simp), indexOfPluses_none hk (hp l (by simp))]
      simp only [Bool.false_eq_true, if_false]
      rw [ih _ ⟨by simp [hc], fun x hx => h.2 x (by simp [hx])⟩ (fun x hx => hp x (by simp [hx])) fun x hx => hd x (by simp [hx])]
      simp; omega

theorem constrainedLater_content {delim : Tk → Bool} (m : List Tk) (ms rest : List (List Tk)) (hm : ∀ t, m.head? = some t → t.kind ≠ .Word) : ∀ (c : List (List Tk)) (n : Nat), contentOk c →
    (∀ l ∈ c, ∀ t ∈ l, t.kind ≠ .Plus) → (∀ l ∈ c, isDelimiter delim l = false) → (∀ t, c.flatten.getLast? = some t → wsish t = false) →
    constrainedLater delim n (glue c ((pluses 1 ++ m) :: ms) ++ rest) = some (n + c.flatten.length) := by
  intro c
  induction c with
  | nil => intro n h; exact absurd rfl h.1
  | cons l c ih =>
    intro n h hp hd hlast
    have hl := h.2 l (by simp)
    have hlen := List.length_pos_iff.2 hl
    cases hc : c with
    | nil =>
      rw [glue_single, List.cons_append, constrainedLater, isDelimiter_false, constrainedEnd_here hl (hp l (by simp)) _ (by simpa [hc] using hlast) hm]
      · simp
      · simp [pluses]; omega
    | cons a b =>
      have hne : c.flatten ≠ [] := by
        have := h.2 a (by simp [hc])
        cases ha : a with
        | nil => exact absurd ha this
        | cons x y => simp [hc, ha]
      rw [← hc, glue_cons (by simp [hc]), List.cons_append, constrainedLater, hd l (by simp), constrainedEnd_none (hp l (by simp))]
      simp only [Bool.false_eq_true, if_false]
      rw [ih _ ⟨by simp [hc], fun x hx => h.2 x (by simp [hx])⟩ (fun x hx => hp x (by simp [hx])) (fun x hx => hd x (by simp [hx]))]
      · simp; omega
      · intro t ht
        apply hlast t
        rw [List.flatten_cons, List.getLast?_append, ht]; rfl

/-- the end of text between pluses is found -/
theorem terminatesPlus_content {delim : Tk → Bool} {k : Nat} {c : List (List Tk)} {m : List Tk} {ms rest : List (List Tk)} {y : List Tk} {ys : List (List Tk)}
    (hk : 1 ≤ k) (hc : contentOk c) (hp : ∀ l ∈ c, ∀ t ∈ l, t.kind ≠ .Plus) (hd : ∀ l ∈ c, isDelimiter delim l = false)
    (h1 : k = 1 → (∀ t, c.flatten.head? = some t → wsish t = false) ∧ (∀ t, c.flatten.getLast? = some t → wsish t = false) ∧ ∀ t, m.head? = some t → t.kind ≠ .Word)
    (hg : glue c ((pluses k ++ m) :: ms) = y :: ys) :
    terminatesPlus delim k (pluses (k - 1) ++ y) (ys ++ rest) = some (k - 1 + c.flatten.length) := by
  cases c with
  | nil => exact absurd rfl hc.1
  | cons l c =>
    have hl := hc.2 l (by simp)
    have hlen := List.length_pos_iff.2 hl
    obtain ⟨t0, l', hl0⟩ : ∃ t l', l = t :: l' := by
      cases l with
      | nil => exact absurd rfl hl
      | cons a b => exact ⟨a, b, rfl⟩
    have ht0 : t0.kind ≠ .Plus := hp l (by simp) t0 (by simp [hl0])
    by_cases hk1 : k = 1
    · subst hk1
      obtain ⟨g1, g2, g3⟩ := h1 rfl
      have hy : y.head? = some t0 := by
        cases hc' : c with
        | nil => rw [hc', glue_single] at hg; cases hg; simp [hl0]
        | cons a b => rw [glue_cons (by simp [hc'])] at hg; cases hg; simp [hl0]
      have hnl : t0.kind ≠ .Newline := by
        have := g1 t0 (by simp [hl0])
        simp [wsish] at this; exact this.2
      rw [terminatesPlus, if_pos rfl]
      simp only [pluses, Nat.sub_self, List.replicate_zero, List.nil_append, Nat.zero_add, constrainedPlus, hy, Option.any_some, hnl, decide_false, Bool.false_eq_true, if_false]
      cases hc' : c with
      | nil =>
        rw [hc', glue_single] at hg
        cases hg
        rw [constrainedEnd_here hl (hp l (by simp)) _ (by simpa [hc'] using g2) g3]
        simp
      | cons a b =>
        rw [glue_cons (by simp [hc'])] at hg
        cases hg
        rw [constrainedEnd_none (hp y (by simp))]
        simp only
        have hne : c.flatten ≠ [] := by
          have := hc.2 a (by simp [hc'])
          cases ha : a with
          | nil => exact absurd ha this
          | cons x y => simp [hc', ha]
        rw [constrainedLater_content m ms rest g3 c _ ⟨by simp [hc'], fun x hx => hc.2 x (by simp [hx])⟩ (fun x hx => hp x (by simp [hx])) (fun x hx => hd x (by simp [hx]))]
        · simp [hc']
        · intro t ht
          apply g2 t
          rw [List.flatten_cons, List.getLast?_append, ht]; rfl
    · rw [terminatesPlus, if_neg hk1]
      cases hc' : c with
      | nil =>
        rw [hc', glue_single] at hg
        cases hg
        rw [indexOfPluses_skip (by omega) (by simp [hl0]) (by simp [hl0, ht0]), indexOfPluses_here hk (hp l (by simp))]
        simp; omega
      | cons a b =>
        rw [glue_cons (by simp [hc'])] at hg
        cases hg
        rw [indexOfPluses_skip (by omega) hl (by simp [hl0, ht0]), indexOfPluses_none hk (hp y (by simp))]
        simp only [Option.map_none]
        rw [plusesLater_content hk _ m ms rest c _ ⟨by simp [hc'], fun x hx => hc.2 x (by simp [hx])⟩ (fun x hx => hp x (by simp [hx])) (fun x hx => hd x (by simp [hx]))]
        simp [pluses, hc']; omega

theorem closeHere_none {last : TokenKind} {l : List Tk} (h : ∀ t ∈ l, t.kind ≠ .OpenBracket ∧ t.kind ≠ .CloseBracket) : closeHere last 1 l = none := by
  induction l generalizing last with
  | nil => rfl
  | cons t ts ih =>
    rw [closeHere, if_neg (by simp [(h t (by simp)).2]), if_neg (by simp [(h t (by simp)).1]), ih fun x hx => h x (by simp [hx])]
    rfl

theorem closeHere_here {last : TokenKind} {l : List Tk} (h : ∀ t ∈ l, t.kind ≠ .OpenBracket ∧ t.kind ≠ .CloseBracket) (r : List Tk)
    (hlast : ((l.getLast?.map (·.kind)).getD last) ≠ .Backslash) : closeHere last 1 (l ++ (closeTok :: r)) = some l.length := by
  induction l generalizing last with
  | nil =>
    rw [List.nil_append, closeHere, if_pos ⟨rfl, by simpa using hlast⟩]; rfl
  | cons t ts ih =>
    rw [List.cons_append, closeHere, if_neg (by simp [(h t (by simp)).2]), if_neg (by simp [(h t (by simp)).1]), ih fun x hx => h x (by simp [hx])]
    · rfl
    · cases ts with
      | nil => simpa using hlast
      | cons a b =>
        rw [List.getLast?_cons_cons] at hlast
        cases hh : (a :: b).getLast? with
        | none => simp at hh
        | some x => rw [hh] at hlast; exact hlast

theorem closeLater_here {last : TokenKind} {l : List Tk} (h : ∀ t ∈ l, t.kind ≠ .OpenBracket ∧ t.kind ≠ .CloseBracket) (r : List Tk)
    (hlast : ((l.getLast?.map (·.kind)).getD last) ≠ .Backslash) : closeLater last (l ++ (closeTok :: r)) = some l.length := by
  induction l generalizing last with
  | nil =>
    rw [List.nil_append, closeLater, if_pos ⟨rfl, by simpa using hlast⟩]; rfl
  | cons t ts ih =>
    rw [List.cons_append, closeLater, if_neg (by simp [(h t (by simp)).2]), ih fun x hx => h x (by simp [hx])]
    · rfl
    · cases ts with
      | nil => simpa using hlast
      | cons a b =>
        rw [List.getLast?_cons_cons] at hlast
        cases hh : (a :: b).getLast? with
        | none => simp at hh
        | some x => rw [hh] at hlast; exact hlast

theorem glue_flatten (c : List (List Tk)) (m : List Tk) (ms : List (List Tk)) : (glue c (m :: ms)).flatten = c.flatten ++ (m ++ ms.flatten) := by
  induction c with
  | nil => simp [glue]
  | cons l c ih =>
    cases hc : c with
    | nil => simp [glue]
    | cons a b => rw [← hc, glue_cons (by simp [hc]), List.flatten_cons, ih]; simp

theorem passMacro_content {tg : List Tk} {c : List (List Tk)} {m : List Tk} {ms rest : List (List Tk)} {y : List Tk} {ys : List (List Tk)}
    (ht : ∀ t ∈ tg, isTarget t = true) (hc : contentOk c) (hb : ∀ l ∈ c, ∀ t ∈ l, t.kind ≠ .OpenBracket ∧ t.kind ≠ .CloseBracket)
    (hlast : ∀ t, c.flatten.getLast? = some t → t.kind ≠ .Backslash) (hg : glue c ((closeTok :: m) :: ms) = y :: ys) :
    passMacro (tg ++ [openTok] ++ y) (ys ++ rest) = some (some (c.flatten.length, macroSubs (Tk.text tg), y)) := by
  have h1 : (tg ++ [openTok] ++ y).takeWhile isTarget = tg := by
    rw [List.append_assoc, List.takeWhile_append_of_pos ht]
    simp [isTarget, openTok]
  have h2 : (tg ++ [openTok] ++ y).dropWhile isTarget = openTok :: y := by
    rw [List.append_assoc, List.dropWhile_append_of_pos ht]
    simp [isTarget, openTok]
  unfold passMacro
  rw [if_neg (by simp), h1, h2]
  simp only [List.head?_cons, Option.any_some, List.drop_succ_cons, List.drop_zero]
  rw [if_neg (by simp [openTok])]
  cases c with
  | nil => exact absurd rfl hc.1
  | cons l c =>
    have hl := hc.2 l (by simp)
    cases hc' : c with
    | nil =>
      rw [hc', glue_single] at hg
      cases hg
      rw [closeHere_here (hb l (by simp))]
      · simp
      · cases hh : l.getLast? with
        | none => simp
        | some t => exact hlast t (by simp [hc', hh])
    | cons a b =>
      rw [glue_cons (by simp [hc'])] at hg
      injection hg with e1 e2
      subst e1
      rw [closeHere_none (hb l (by simp))]
      simp only
      have hne : c.flatten ≠ [] := by
        have := hc.2 a (by simp [hc'])
        cases ha : a with
        | nil => exact absurd ha this
        | cons x y => simp [hc', ha]
      have : (ys ++ rest).flatten = c.flatten ++ (closeTok :: (m ++ ms.flatten ++ rest.flatten)) := by
        rw [List.flatten_append, ← e2, glue_flatten]; simp
      rw [this, closeLater_here]
      · simp [hc']
      · intro t ht
        obtain ⟨x, hx, hx'⟩ := List.mem_flatten.1 ht
        exact hb x (by simp [hx]) t hx'
      · rw [List.getLast?_eq_some_getLast hne]
        exact hlast _ (by rw [List.flatten_cons, List.getLast?_append, List.getLast?_eq_some_getLast hne]; rfl)

/-! ### taking the text out -/

theorem accum_content {d : Tk} {m : List Tk} {ms rest : List (List Tk)} : ∀ (c : List (List Tk)) (acc : List (List Tk)) (y : List Tk) (ys : List (List Tk)), contentOk c →
    glue c ((d :: m) :: ms) = y :: ys → accum c.flatten.length y acc (ys ++ rest) = some (acc ++ c, m, ms ++ rest) := by
  intro c
  induction c with
  | nil => intro acc y ys h; exact absurd rfl h.1
  | cons l c ih =>
    intro acc y ys h hg
    have hl := h.2 l (by simp)
    cases hc : c with
    | nil =>
      rw [hc, glue_single] at hg
      cases hg
      have e1 : (l ++ d :: m).take [l].flatten.length = l := by simp
      have e2 : (l ++ d :: m).drop ([l].flatten.length + 1) = m := by
        simp [List.drop_append]
      have e3 : [l].flatten.length ≤ (l ++ d :: m).length := by simp
      cases hms : ms ++ rest with
      | nil => rw [accum, if_pos e3, e1, e2]
      | cons a b => rw [accum, if_pos e3, e1, e2]
    | cons a b =>
      rw [← hc]
      rw [glue_cons (by simp [hc])] at hg
      injection hg with e1 e2
      subst e1
      have hc0 : contentOk c := ⟨by simp [hc], fun x hx => h.2 x (by simp [hx])⟩
      obtain ⟨z, zs, hz⟩ : ∃ z zs, ys = z :: zs := by
        cases hys : ys with
        | nil => rw [hys] at e2; exact absurd e2 (glue_ne_nil _ (by simp))
        | cons z zs => exact ⟨z, zs, rfl⟩
      have ha := List.length_pos_iff.2 (h.2 a (by simp [hc]))
      rw [hz, List.cons_append, accum, if_neg (by simp [hc]; omega), if_neg hl]
      have : (l :: c).flatten.length - l.length = c.flatten.length := by simp
      rw [this, ih (acc ++ [l]) z zs hc0 (by rw [e2, hz])]
      simp

/-- the tokens of a line of which the passthroughs are taken out -/
def encode : Nat → List Piece → List Tk
  | _, [] => []
  | n, .plain t :: ps => t :: encode n ps
  | n, .plus _ _ :: ps => ⟨.PreprocPassthru, placeholder n⟩ :: encode (n + 1) ps
  | n, .passMacro _ _ :: ps => ⟨.PreprocPassthru, placeholder n⟩ :: encode (n + 1) ps

/-- the text that is taken out -/
def passes : List Piece → List Pass
  | [] => []
  | p :: ps => match p.meaning with
    | .pass x => x :: passes ps
    | .tok _ => passes ps

/-- what the program remembers of the token before, and what it is -/
def Compat (a b : Option TokenKind) : Prop := a = b ∨ a = some .Plus ∨ (b = some .CloseBracket ∧ a = some .MacroName)

theorem content_last {c : List (List Tk)} (h : contentOk c) : c.getLast? ≠ some [] := by
  intro e
  exact h.2 [] (List.mem_of_getLast? e) rfl

theorem write_cons (ps : List Piece) : ∃ m ms, write ps = m :: ms := by
  cases hh : write ps with
  | nil => exact absurd hh (write_ne_nil ps)
  | cons a b => exact ⟨a, b, rfl⟩

theorem glue_cons' (c : List (List Tk)) (m : List Tk) (ms : List (List Tk)) : ∃ y ys, glue c (m :: ms) = y :: ys := by
  cases hg : glue c (m :: ms) with
  | nil => exact absurd hg (glue_ne_nil _ (by simp))
  | cons y ys => exact ⟨y, ys, rfl⟩

theorem head_write {delim : Tk → Bool} {prev : Option TokenKind} {ps : List Piece} (hok : lineOk delim prev ps) {m : List Tk} {ms : List (List Tk)} (h : write ps = m :: ms) :
    ∀ t, m.head? = some t → t.kind = .Word → ps.head? = some (.plain t) := by
  intro t ht hw
  cases ps with
  | nil => simp [write] at h; obtain ⟨rfl, _⟩ := h; simp at ht
  | cons p ps =>
    obtain ⟨m', ms', hw'⟩ := write_cons ps
    cases p with
    | plain u =>
      rw [write, hw', glue_single] at h
      cases h
      simp at ht; subst ht; rfl
    | plus k c =>
      obtain ⟨k, rfl⟩ : ∃ j, k = j + 1 := ⟨k - 1, by have := hok.1.1; omega⟩
      rw [write, hw', glue_single] at h
      obtain ⟨y, ys, hg⟩ := glue_cons' c (pluses (k + 1) ++ m') ms'
      rw [hg, glue_single] at h
      cases h
      simp [pluses, List.replicate_succ] at ht; subst ht; cases hw
    | passMacro tg c =>
      rw [write, hw', glue_single] at h
      obtain ⟨y, ys, hg⟩ := glue_cons' c ([closeTok] ++ m') ms'
      rw [hg, glue_single] at h
      cases h
      simp [passTok] at ht; subst ht; cases hw

theorem couldBe {prev prev' : Option TokenKind} (h : Compat prev' prev) (hb : prev ≠ some .Backtick) {k : Nat} (hk : 1 ≤ k) (hk3 : k ≤ 3) (hk1 : k = 1 → prev = none ∨ prev = some .Whitespace)
    {y : List Tk} {t0 : Tk} {y' : List Tk} (hy : y = t0 :: y') (ht : t0.kind ≠ .Plus) :
    couldBePlus prev' (pluses (k - 1) ++ y) = true ∧ plusCount (pluses (k - 1) ++ y) = k := by
  subst hy
  have hb' : prev' ≠ some .Backtick := by
    rcases h with rfl | rfl | ⟨_, rfl⟩
    · exact hb
    · simp
    · simp
  have h1 : k = 1 → prev' = none ∨ prev' = some .Whitespace ∨ prev' = some .Plus := by
    intro e
    rcases h with rfl | rfl | ⟨rfl, rfl⟩
    · rcases hk1 e with h | h
      · exact .inl h
      · exact .inr (.inl h)
    · exact .inr (.inr rfl)
    · rcases hk1 e with h | h <;> cases h
  have : k = 1 ∨ k = 2 ∨ k = 3 := by omega
  rcases this with rfl | rfl | rfl
  · rcases h1 rfl with rfl | rfl | rfl <;> simp [couldBePlus, plusCount, pluses, ht]
  · simp [couldBePlus, plusCount, pluses, List.replicate_succ, ht, hb']
  · simp [couldBePlus, plusCount, pluses, List.replicate_succ, ht, hb']

theorem glue_head {c : List (List Tk)} (h : contentOk c) {m : List Tk} {ms : List (List Tk)} {y : List Tk} {ys : List (List Tk)} (hg : glue c (m :: ms) = y :: ys) :
    ∃ t0 y', y = t0 :: y' ∧ ∃ l ∈ c, t0 ∈ l := by
  cases c with
  | nil => exact absurd rfl h.1
  | cons l c =>
    have hl := h.2 l (by simp)
    cases l with
    | nil => exact absurd rfl hl
    | cons t l =>
      cases c with
      | nil => rw [glue_single] at hg; cases hg; exact ⟨t, l ++ m, rfl, t :: l, by simp, by simp⟩
      | cons a b => rw [glue_cons (by simp)] at hg; cases hg; exact ⟨t, l, rfl, t :: l, by simp, by simp⟩

theorem replaceLoop_written {delim : Tk → Bool} {rest : List (List Tk)} : ∀ (ps : List Piece) (prev prev' : Option TokenKind) (skip fuel : Nat) (store : Store) (m : List Tk) (ms : List (List Tk)),
    lineOk delim prev ps → Compat prev' prev → (skip ≠ 0 → prev' = some .Plus) → (∀ q ∈ ps.take skip, q.isPass = false) → ps.length < fuel → write ps = m :: ms →
    replaceLoop delim fuel prev' skip m (ms ++ rest) store = some (encode store.length ps, rest, store ++ (passes ps).map some) := by
  intro ps
  induction ps with
  | nil =>
    intro prev prev' skip fuel store m ms _ _ _ _ hf hw
    obtain ⟨f, rfl⟩ : ∃ f, fuel = f + 1 := ⟨fuel - 1, by omega⟩
    simp only [write, List.cons.injEq] at hw
    obtain ⟨rfl, rfl⟩ := hw
    simp [replaceLoop, encode, passes]
  | cons p ps ih =>
    intro prev prev' skip fuel store m ms hok hcomp hskip htake hf hw
    obtain ⟨f, rfl⟩ : ∃ f, fuel = f + 1 := ⟨fuel - 1, by omega⟩
    have hf' : ps.length < f := by simp only [List.length_cons] at hf; omega
    obtain ⟨m', ms', hw'⟩ := write_cons ps
    obtain ⟨h1, h2, h3⟩ := hok
    cases p with
    | plain t =>
      rw [write, hw', glue_single] at hw
      injection hw with w1 w2
      subst w1; subst w2
      rw [List.singleton_append]
      cases skip with
      | zero =>
        have : findPass delim prev' t m' (ms' ++ rest) = some none := by
          unfold findPass
          rw [if_neg h1.2.2, if_neg (by simp [h1.1])]
        rw [replaceLoop, this, Option.bind_some]
        simp only
        rw [ih (some t.kind) (some t.kind) 0 f store m' ms' h3 (.inl rfl) (by simp) (by simp) hf' hw']
        rfl
      | succ skip =>
        rw [replaceLoop, ih (some t.kind) prev' skip f store m' ms' h3 (.inr (.inl (hskip (by simp)))) (fun _ => hskip (by simp))
          (fun q hq => htake q (by rw [List.take_succ_cons]; exact List.mem_cons_of_mem _ hq)) hf' hw']
        rfl
    | plus k c =>
      cases skip with
      | succ skip => have := htake (.plus k c) (by simp); simp [Piece.isPass] at this
      | zero =>
        obtain ⟨k1, k3, hc, hp, hd, hb, hk⟩ := h1
        rw [write, hw', glue_single] at hw
        obtain ⟨y, ys, hg⟩ := glue_cons' c (pluses k ++ m') ms'
        rw [hg, glue_single] at hw
        injection hw with w1 w2
        subst w1; subst w2
        obtain ⟨t0, y', hy, l0, hl0, ht0⟩ := glue_head hc hg
        obtain ⟨q1, q2⟩ := couldBe hcomp hb k1 k3 (fun e => (hk e).1) hy (hp l0 hl0 t0 ht0)
        have q3 := terminatesPlus_content (delim := delim) (rest := rest) k1 hc hp hd
          (fun e => ⟨(hk e).2.1, (hk e).2.2.1, fun t ht hwd => (hk e).2.2.2 t (head_write h3 hw' t ht hwd) hwd⟩) hg
        have e : pluses k ++ y = ⟨.Plus, ['+']⟩ :: (pluses (k - 1) ++ y) := by
          obtain ⟨j, rfl⟩ : ∃ j, k = j + 1 := ⟨k - 1, by omega⟩
          rfl
        have hfind : findPass delim prev' ⟨.Plus, ['+']⟩ (pluses (k - 1) ++ y) (ys ++ rest) = some (some (k, k - 1 + c.flatten.length, plusSubs k, pluses (k - 1) ++ y)) := by
          unfold findPass
          rw [if_neg (by simp), if_pos ⟨rfl, q1⟩, q2, q3]
          rfl
        have hdrop : (pluses (k - 1) ++ y).drop (k - 1) = y := by simp [pluses]
        have hacc : accum c.flatten.length y [] (ys ++ rest) = some ([] ++ c, pluses (k - 1) ++ m', ms' ++ rest) := by
          apply accum_content (d := ⟨.Plus, ['+']⟩) c [] y ys hc
          rw [← hg]
          obtain ⟨j, rfl⟩ : ∃ j, k = j + 1 := ⟨k - 1, by omega⟩
          rfl
        have hplace : passPlaceholder k (pluses (k - 1) ++ y) (ys ++ rest) (k - 1 + c.flatten.length) (plusSubs k) store =
            some (⟨.PreprocPassthru, placeholder store.length⟩, m', ms' ++ rest, store ++ [some ⟨plusSubs k, c⟩]) := by
          unfold passPlaceholder
          rw [show k - 1 + c.flatten.length - (k - 1) = c.flatten.length from by omega, hdrop, hacc]
          simp only [Option.bind_some, List.nil_append, if_neg (content_last hc)]
          congr 3
          simp [pluses]
        rw [e, replaceLoop, hfind]
        simp only [Option.bind_some, hplace]
        rw [ih (some .Plus) (some .Plus) k f _ m' ms' h3 (.inl rfl) (fun _ => rfl) (h2 k c rfl) hf' hw']
        simp [encode, passes, Piece.meaning, plusSubs]
    | passMacro tg c =>
      cases skip with
      | succ skip => have := htake (.passMacro tg c) (by simp); simp [Piece.isPass] at this
      | zero =>
        obtain ⟨ht, hc, hb, hlast⟩ := h1
        rw [write, hw', glue_single] at hw
        obtain ⟨y, ys, hg⟩ := glue_cons' c ([closeTok] ++ m') ms'
        rw [hg, glue_single] at hw
        injection hw with w1 w2
        subst w1; subst w2
        have q := passMacro_content (rest := rest) ht hc hb hlast hg
        have hfind : findPass delim prev' passTok (tg ++ [openTok] ++ y) (ys ++ rest) = some (some (0, c.flatten.length, macroSubs (Tk.text tg), y)) := by
          unfold findPass
          rw [if_pos ⟨rfl, rfl⟩, q]
          rfl
        have hacc : accum c.flatten.length y [] (ys ++ rest) = some ([] ++ c, m', ms' ++ rest) :=
          accum_content (d := closeTok) c [] y ys hc (by rw [← hg]; rfl)
        have hplace : passPlaceholder 0 y (ys ++ rest) c.flatten.length (macroSubs (Tk.text tg)) store =
            some (⟨.PreprocPassthru, placeholder store.length⟩, m', ms' ++ rest, store ++ [some ⟨macroSubs (Tk.text tg), c⟩]) := by
          unfold passPlaceholder
          simp only [Nat.zero_sub, Nat.sub_zero, List.drop_zero, hacc, Option.bind_some, List.nil_append, if_neg (content_last hc)]
        rw [List.cons_append, replaceLoop, hfind]
        simp only [Option.bind_some, hplace]
        rw [show passTok.kind = .MacroName from rfl, ih (some .CloseBracket) (some .MacroName) 0 f _ m' ms' h3 (.inr (.inr ⟨rfl, rfl⟩)) (by simp) (by simp) hf' hw']
        simp [encode, passes, Piece.meaning]

/-! ### putting it back -/

theorem ofDigitChars_zeros (j : Nat) (l : List Char) : Nat.ofDigitChars 10 (List.replicate j '0' ++ l) 0 = Nat.ofDigitChars 10 l 0 := by
  induction j with
  | zero => rfl
  | succ j ih =>
    rw [List.replicate_succ, List.cons_append, ← ih]
    simp [Nat.ofDigitChars_eq_foldl]

theorem length_digits {n : Nat} (h : n < 100000) : (Nat.toDigits 10 n).length ≤ 5 := by
  rw [Nat.length_toDigits_le_iff (by decide) (by decide)]
  exact h

theorem parseUsize_of {l : List Char} (hne : l ≠ []) (hd : ∀ c ∈ l, c.isDigit = true) (hv : Nat.ofDigitChars 10 l 0 ≤ usizeMax) : parseUsize l = some (Nat.ofDigitChars 10 l 0) := by
  unfold parseUsize
  have hplus : stripPlus l = l := by
    cases l with
    | nil => rfl
    | cons c cs =>
      have := hd c (by simp)
      rw [stripPlus, if_neg]
      rintro rfl
      exact absurd this (by decide)
  rw [hplus]
  simp only
  rw [if_neg, foldl_digits, if_pos hv]
  rintro (h | h)
  · exact hne h
  · simp only [List.any_eq_true, Bool.not_eq_eq_eq_not, Bool.not_true] at h
    obtain ⟨c, hc, h⟩ := h
    rw [hd c hc] at h; cases h

/-- the index of a placeholder is read back if it has at most five digits -/
theorem readIndex_placeholder {n : Nat} (h : n < 100000) : readIndex (placeholder n) = some n := by
  have hl := length_digits h
  have hlen : (placeholder n).length = 6 := by simp [placeholder]; omega
  unfold readIndex
  rw [if_neg (by omega)]
  have e : ((placeholder n).drop 1).take 5 = List.replicate (5 - (Nat.toDigits 10 n).length) '0' ++ Nat.toDigits 10 n := by
    rw [List.take_of_length_le (by simp [hlen])]; rfl
  have hval : Nat.ofDigitChars 10 (List.replicate (5 - (Nat.toDigits 10 n).length) '0' ++ Nat.toDigits 10 n) 0 = n := by
    rw [ofDigitChars_zeros, Nat.ofDigitChars_ten_toDigits]
  rw [e, parseUsize_of, hval]
  · intro e'
    exact Nat.toDigits_ne_nil (List.append_eq_nil_iff.1 e').2
  · intro c hc
    simp only [List.mem_append, List.mem_replicate] at hc
    rcases hc with ⟨_, rfl⟩ | hc
    · decide
    · exact Nat.isDigit_of_mem_toDigits (by decide) (by decide) hc
  · rw [hval]; simp only [usizeMax]; omega

theorem restoreTokens_encode {delim : Tk → Bool} : ∀ (ps : List Piece) (prev : Option TokenKind) (pre : Store), lineOk delim prev ps → pre.length + (passes ps).length ≤ 100000 →
    restoreTokens (encode pre.length ps) (pre ++ (passes ps).map some) = some (ps.map Piece.meaning, pre ++ List.replicate (passes ps).length none) := by
  intro ps
  induction ps with
  | nil => intro prev pre _ _; simp [encode, restoreTokens, passes]
  | cons p ps ih =>
    intro prev pre hok hlen
    obtain ⟨h1, _, h3⟩ := hok
    have key : ∀ x : Pass, p.meaning = .pass x → encode pre.length (p :: ps) = ⟨.PreprocPassthru, placeholder pre.length⟩ :: encode (pre.length + 1) ps →
        restoreTokens (encode pre.length (p :: ps)) (pre ++ (passes (p :: ps)).map some) = some ((p :: ps).map Piece.meaning, pre ++ List.replicate (passes (p :: ps)).length none) := by
      intro x hx he
      have hps : passes (p :: ps) = x :: passes ps := by simp [passes, hx]
      rw [hps] at hlen ⊢
      simp only [List.length_cons] at hlen
      rw [he, restoreTokens, if_pos rfl, readIndex_placeholder (by omega), Option.bind_some]
      have e1 : (pre ++ (x :: passes ps).map some)[pre.length]? = some (some x) := by simp
      have e2 : (pre ++ (x :: passes ps).map some).set pre.length none = (pre ++ [none]) ++ (passes ps).map some := by
        exact (List.set_append_right pre.length none (by simp)).trans (by simp)
      rw [e1, e2]
      simp only [Option.join_some, Option.bind_some]
      have := ih _ (pre ++ [none]) h3 (by simp; omega)
      rw [List.length_append, List.length_singleton] at this
      rw [this]
      simp [hx, List.replicate_succ]
    cases p with
    | plain t =>
      rw [encode, restoreTokens, if_neg h1.2.1]
      have hps : passes (.plain t :: ps) = passes ps := rfl
      rw [hps] at hlen ⊢
      rw [ih _ pre h3 hlen]
      rfl
    | plus k c => exact key _ rfl rfl
    | passMacro tg c => exact key _ rfl rfl

/-! ### lines that may contain passthroughs -/

def hasMacro (l : List Tk) : Bool := l.any fun t => t.kind = .MacroName ∧ t.lexeme = "pass:".toList

theorem passPluses_append (prev : Option TokenKind) (a : List Tk) (t : Tk) (b : List Tk) :
    passPluses prev (a ++ t :: b) = passPluses prev a + passPluses ((a.getLast?.map (·.kind)).or prev) [t] + passPluses (some t.kind) b := by
  induction a generalizing prev with
  | nil =>
    show _ + _ = 0 + (_ + 0) + _
    rw [Nat.zero_add]; rfl
  | cons x a ih =>
    rw [List.cons_append, passPluses, ih]
    have : ((a.getLast?.map (·.kind)).or (some x.kind)) = (((x :: a).getLast?.map (·.kind)).or prev) := by
      cases a with
      | nil => rfl
      | cons b c =>
        rw [List.getLast?_cons_cons, List.getLast?_eq_some_getLast (by simp)]
        rfl
    rw [this]
    show _ = _ + passPluses (some x.kind) a + _ + _
    simp only [Nat.add_assoc]

theorem plain_pluses {prev : Option TokenKind} {l : List Tk} (h : ∀ t ∈ l, t.kind ≠ .Plus) : passPluses prev l = 0 := by
  induction l generalizing prev with
  | nil => rfl
  | cons t ts ih => rw [passPluses, if_neg (by simp [h t (by simp)]), ih fun x hx => h x (by simp [hx])]

theorem write_plain {delim : Tk → Bool} {prev : Option TokenKind} {ps : List Piece} (hok : lineOk delim prev ps) (h : ∀ p ∈ ps, p.isPass = false) {m : List Tk} {ms : List (List Tk)} (hw : write ps = m :: ms) :
    ms = [] ∧ m = encode 0 ps ∧ passes ps = [] ∧ (∀ n, encode n ps = encode 0 ps) ∧ ∀ t ∈ m, t.kind ≠ .Plus ∧ ¬ (t.kind = .MacroName ∧ t.lexeme = "pass:".toList) := by
  induction ps generalizing prev m ms with
  | nil => simp [write] at hw; obtain ⟨rfl, rfl⟩ := hw; simp [encode, passes]
  | cons p ps ih =>
    cases p with
    | plus k c => have := h (.plus k c) (by simp); simp [Piece.isPass] at this
    | passMacro k c => have := h (.passMacro k c) (by simp); simp [Piece.isPass] at this
    | plain t =>
      obtain ⟨m', ms', hw'⟩ := write_cons ps
      obtain ⟨e1, e2, e3, e4, e5⟩ := ih hok.2.2 (fun p hp => h p (by simp [hp])) hw'
      rw [write, hw', glue_single] at hw
      injection hw with w1 w2
      subst w1; subst w2
      refine ⟨e1, by simp [encode, e2], e3, fun n => by rw [encode, encode, e4 n], ?_⟩
      intro u hu
      simp only [List.singleton_append, List.mem_cons] at hu
      rcases hu with rfl | hu
      · exact ⟨hok.1.1, hok.1.2.2⟩
      · exact e5 u hu

/-- a written passthrough can be seen on the first line -/
theorem write_seen {delim : Tk → Bool} {prev : Option TokenKind} {ps : List Piece} (hok : lineOk delim prev ps) (h : ∃ p ∈ ps, p.isPass = true) {m : List Tk} {ms : List (List Tk)} (hw : write ps = m :: ms) :
    hasMacro m = true ∨ 1 ≤ passPluses prev m := by
  induction ps generalizing prev m ms with
  | nil => simp at h
  | cons p ps ih =>
    obtain ⟨m', ms', hw'⟩ := write_cons ps
    cases p with
    | plain t =>
      rw [write, hw', glue_single] at hw
      injection hw with w1 w2
      subst w1; subst w2
      have : ∃ p ∈ ps, p.isPass = true := by
        obtain ⟨p, hp, hp'⟩ := h
        simp only [List.mem_cons] at hp
        rcases hp with rfl | hp
        · simp [Piece.isPass] at hp'
        · exact ⟨p, hp, hp'⟩
      rcases ih hok.2.2 this hw' with h | h
      · left; simp only [hasMacro, List.singleton_append, List.any_cons, Bool.or_eq_true] at h ⊢; exact .inr h
      · right; rw [List.singleton_append, passPluses]
        have : Piece.lastKind (.plain t) = t.kind := rfl
        rw [this] at h; omega
    | plus k c =>
      right
      obtain ⟨k, rfl⟩ : ∃ j, k = j + 1 := ⟨k - 1, by have := hok.1.1; omega⟩
      rw [write, hw', glue_single] at hw
      obtain ⟨y, ys, hg⟩ := glue_cons' c (pluses (k + 1) ++ m') ms'
      rw [hg, glue_single] at hw
      injection hw with w1 w2
      subst w1
      rw [pluses, List.replicate_succ, List.cons_append, passPluses, if_pos]
      · omega
      · exact ⟨rfl, hok.1.2.2.2.2.2.1, by simp [Tk.len]⟩
    | passMacro tg c =>
      left
      rw [write, hw', glue_single] at hw
      obtain ⟨y, ys, hg⟩ := glue_cons' c ([closeTok] ++ m') ms'
      rw [hg, glue_single] at hw
      injection hw with w1 w2
      subst w1
      simp [hasMacro, passTok]

theorem write_last {delim : Tk → Bool} {prev : Option TokenKind} {ps : List Piece} (hok : lineOk delim prev ps) {m : List Tk} {ms : List (List Tk)} (hw : write ps = m :: ms)
    {t : Tk} (ht : m.getLast? = some t) (hp : t.kind = .Plus) : ∃ p ∈ ps, p.isPass = true := by
  apply Classical.byContradiction
  intro hn
  have : ∀ p ∈ ps, p.isPass = false := by
    intro p hp
    cases h : p.isPass with
    | false => rfl
    | true => exact absurd ⟨p, hp, h⟩ hn
  exact ((write_plain hok this hw).2.2.2.2 t (List.mem_of_getLast? ht)).1 hp

/-- the end of the line is not taken for a line break -/
def NoBreak (m : List Tk) : Prop := ∀ a u t, m = a ++ [u, t] → t.kind = .Plus → wsish u = false

theorem write_pluses {delim : Tk → Bool} {prev : Option TokenKind} {ps : List Piece} (hok : lineOk delim prev ps) (h : ∃ p ∈ ps, p.isPass = true) {m : List Tk} {ms : List (List Tk)} (hw : write ps = m :: ms) :
    hasMacro m = true ∨ 2 ≤ passPluses prev m ∨ NoBreak m := by
  induction ps generalizing prev m ms with
  | nil => simp at h
  | cons p ps ih =>
    obtain ⟨m', ms', hw'⟩ := write_cons ps
    cases p with
    | plain t =>
      rw [write, hw', glue_single] at hw
      injection hw with w1 w2
      subst w1; subst w2
      have hex : ∃ p ∈ ps, p.isPass = true := by
        obtain ⟨p, hp, hp'⟩ := h
        simp only [List.mem_cons] at hp
        rcases hp with rfl | hp
        · simp [Piece.isPass] at hp'
        · exact ⟨p, hp, hp'⟩
      rcases ih hok.2.2 hex hw' with h | h | h
      · left; simp only [hasMacro, List.singleton_append, List.any_cons, Bool.or_eq_true] at h ⊢; exact .inr h
      · right; left; rw [List.singleton_append, passPluses]
        have : Piece.lastKind (.plain t) = t.kind := rfl
        rw [this] at h; omega
      · by_cases hl : 2 ≤ m'.length
        · right; right
          intro a u v e hv
          cases a with
          | nil =>
            have := congrArg List.length e
            simp at this; omega
          | cons x a =>
            simp only [List.cons_append, List.cons.injEq] at e
            exact h a u v e.2 hv
        · -- a line with a passthrough that is not a macro has two tokens
          rcases write_seen hok.2.2 hex hw' with hs | hs
          · left; simp only [hasMacro, List.singleton_append, List.any_cons, Bool.or_eq_true] at hs ⊢; exact .inr hs
          · exfalso
            obtain ⟨p, hp, hp'⟩ := hex
            have : ∀ (ps : List Piece) (prev : Option TokenKind) (m : List Tk) (ms : List (List Tk)), lineOk delim prev ps → write ps = m :: ms → (∃ p ∈ ps, p.isPass = true) → 2 ≤ m.length := by
              intro ps
              induction ps with
              | nil => intro _ _ _ _ _ h; simp at h
              | cons q qs ih =>
                intro prev m ms hok hw hex
                obtain ⟨m', ms', hw'⟩ := write_cons qs
                cases q with
                | plain t =>
                  rw [write, hw', glue_single] at hw
                  injection hw with w1 w2
                  subst w1
                  have := ih _ m' ms' hok.2.2 hw' (by
                    obtain ⟨p, hp, hp'⟩ := hex
                    simp only [List.mem_cons] at hp
                    rcases hp with rfl | hp
                    · simp [Piece.isPass] at hp'
                    · exact ⟨p, hp, hp'⟩)
                  simp; omega
                | plus k c =>
                  rw [write, hw', glue_single] at hw
                  obtain ⟨y, ys, hg⟩ := glue_cons' c (pluses k ++ m') ms'
                  rw [hg, glue_single] at hw
                  injection hw with w1 w2
                  subst w1
                  obtain ⟨t0, y', hy, _⟩ := glue_head hok.1.2.2.1 hg
                  have := hok.1.1
                  simp [pluses, hy]; omega
                | passMacro tg c =>
                  rw [write, hw', glue_single] at hw
                  obtain ⟨y, ys, hg⟩ := glue_cons' c ([closeTok] ++ m') ms'
                  rw [hg, glue_single] at hw
                  injection hw with w1 w2
                  subst w1
                  simp; omega
            have := this ps _ m' ms' hok.2.2 hw' ⟨p, hp, hp'⟩
            omega
    | passMacro tg c =>
      left
      rw [write, hw', glue_single] at hw
      obtain ⟨y, ys, hg⟩ := glue_cons' c ([closeTok] ++ m') ms'
      rw [hg, glue_single] at hw
      injection hw with w1 w2
      subst w1
      simp [hasMacro, passTok]
    | plus k c =>
      obtain ⟨k1, k3, hc, hp, hd, hb, hk⟩ := hok.1
      rw [write, hw', glue_single] at hw
      obtain ⟨y, ys, hg⟩ := glue_cons' c (pluses k ++ m') ms'
      rw [hg, glue_single] at hw
      injection hw with w1 w2
      subst w1
      have count : ∀ (j : Nat) (pv : Option TokenKind) (z : List Tk), pv ≠ some .Backtick → passPluses pv (pluses j ++ z) = j + passPluses (if j = 0 then pv else some .Plus) z := by
        intro j
        induction j with
        | zero => intro pv z _; simp [pluses]
        | succ j ih =>
          intro pv z hpv
          have : pluses (j + 1) ++ z = ⟨.Plus, ['+']⟩ :: (pluses j ++ z) := rfl
          rw [this, passPluses, if_pos ⟨rfl, hpv, by simp [Tk.len]⟩, ih (some .Plus) z (by simp)]
          split <;> simp <;> omega
      by_cases hk2 : 2 ≤ k
      · right; left; rw [count k prev y hb]; omega
      · have hk1 : k = 1 := by omega
        subst hk1
        obtain ⟨_, g1, g2, _⟩ := hk rfl
        cases c with
        | nil => exact absurd rfl hc.1
        | cons l c =>
          have hl := hc.2 l (by simp)
          have hlast : l.getLast? = some (l.getLast hl) := List.getLast?_eq_some_getLast hl
          cases hc' : c with
          | cons a b =>
            rw [glue_cons (by simp [hc'])] at hg
            injection hg with e1 e2
            subst e1
            right; right
            intro a' u v e hv
            exfalso
            have : (pluses 1 ++ l).getLast? = some v := by rw [e]; simp
            rw [List.getLast?_append, hlast] at this
            cases this
            exact hp l (by simp) _ (List.getLast_mem hl) hv
          | nil =>
            subst hc'
            rw [glue_single] at hg
            injection hg with e1 e2
            subst e1
            rw [count 1 prev _ hb]
            cases hm : m' with
            | nil =>
              right; right
              intro a' u v e hv
              have : (pluses 1 ++ (l ++ (pluses 1 ++ []))).dropLast.getLast? = some u := by
                rw [e]; simp
              have e' : (pluses 1 ++ (l ++ (pluses 1 ++ []))) = (pluses 1 ++ l) ++ [⟨.Plus, ['+']⟩] := by simp [pluses]
              rw [e', List.dropLast_concat, List.getLast?_append, hlast] at this
              cases this
              exact g2 _ (by simp [hlast])
            | cons x xs =>
              have hml : m'.getLast? = some (m'.getLast (by simp [hm])) := List.getLast?_eq_some_getLast _
              by_cases hlp : (m'.getLast (by simp [hm])).kind = .Plus
              · have hex := write_last hok.2.2 hw' hml hlp
                rcases write_seen hok.2.2 hex hw' with hs | hs
                · left
                  simp only [hasMacro, List.any_append, Bool.or_eq_true] at hs ⊢
                  rw [← hm]
                  exact .inr (.inr (.inr hs))
                · right; left
                  rw [← hm, show l ++ (pluses 1 ++ m') = l ++ ⟨.Plus, ['+']⟩ :: m' from rfl, passPluses_append]
                  have : Piece.lastKind (.plus 1 [l]) = .Plus := rfl
                  rw [this] at hs
                  simp only at hs ⊢
                  omega
              · right; right
                intro a' u v e hv
                exfalso
                have : (pluses 1 ++ (l ++ (pluses 1 ++ (x :: xs)))).getLast? = some v := by rw [e]; simp
                rw [← hm, List.getLast?_append, List.getLast?_append, List.getLast?_append, hml] at this
                cases this
                exact hlp hv

theorem mayContain_written {delim : Tk → Bool} {ps : List Piece} (hok : lineOk delim none ps) {m : List Tk} {ms : List (List Tk)} (hw : write ps = m :: ms) :
    mayContainPass m = true ∨ ∀ p ∈ ps, p.isPass = false := by
  by_cases h : ∃ p ∈ ps, p.isPass = true
  · left
    have h1 := write_seen hok h hw
    have h2 := write_pluses hok h hw
    unfold mayContainPass
    have hm : (m.any fun t => decide (t.kind = .MacroName ∧ t.lexeme = "pass:".toList)) = hasMacro m := rfl
    simp only [hm]
    cases hh : hasMacro m with
    | true => simp
    | false =>
      rw [hh] at h1 h2
      simp only [Bool.false_eq_true, false_or] at h1 h2
      simp only [Bool.not_false, Bool.true_and, decide_eq_true_eq, Bool.false_or]
      rw [if_neg (by omega)]
      split
      · rfl
      · rename_i hgt
        have hnb : NoBreak m := by
          rcases h2 with h | h
          · omega
          · exact h
        split
        · rename_i t ht
          split
          · rename_i hc
            obtain ⟨a, ha⟩ : ∃ a, m = a ++ [t] := by
              have hne : m ≠ [] := by rintro rfl; simp at ht
              refine ⟨m.dropLast, ?_⟩
              have := List.dropLast_concat_getLast hne
              rw [List.getLast?_eq_some_getLast hne] at ht
              cases ht; exact this.symm
            have hne : a ≠ [] := by rintro rfl; rw [ha] at hc; simp at hc
            obtain ⟨b, u, hb⟩ : ∃ b u, a = b ++ [u] := ⟨a.dropLast, a.getLast hne, (List.dropLast_concat_getLast hne).symm⟩
            have e : m = b ++ [u, t] := by rw [ha, hb]; simp
            have hu := hnb b u t e hc.1
            have : m[m.length - 2]? = some u := by rw [e]; simp
            rw [this]; simp [hu]
          · rfl
        · rfl
  · right
    intro p hp
    cases hh : p.isPass with
    | false => rfl
    | true => exact absurd ⟨p, hp, hh⟩ h

theorem length_write (ps : List Piece) : ps.length ≤ (write ps).flatten.length ∨ ∃ p ∈ ps, ∃ k c, p = .plus k c ∧ k = 0 := by
  induction ps with
  | nil => left; simp
  | cons p ps ih =>
    obtain ⟨m', ms', hw'⟩ := write_cons ps
    rcases ih with ih | ⟨p', hp', k, c, h⟩
    · cases p with
      | plain t => left; rw [write, hw', glue_flatten, ← List.flatten_cons, ← hw', List.length_append]; simp only [List.length_cons, List.flatten_cons, List.flatten_nil, List.append_nil, List.length_nil]; omega
      | plus k c =>
        by_cases hk : k = 0
        · right; exact ⟨_, by simp, k, c, rfl, hk⟩
        · left
          rw [write, hw', glue_single]
          obtain ⟨y, ys, hg⟩ := glue_cons' c (pluses k ++ m') ms'
          rw [hg, glue_flatten, ← List.flatten_cons, ← hg, glue_flatten]
          rw [hw'] at ih
          simp [pluses] at ih ⊢; omega
      | passMacro tg c =>
        left
        rw [write, hw', glue_single]
        obtain ⟨y, ys, hg⟩ := glue_cons' c ([closeTok] ++ m') ms'
        rw [hg, glue_flatten, ← List.flatten_cons, ← hg, glue_flatten]
        rw [hw'] at ih
        simp at ih ⊢; omega
    · right; exact ⟨p', by simp [hp'], k, c, h⟩

theorem lineOk_mem {delim : Tk → Bool} {ps : List Piece} {prev : Option TokenKind} (h : lineOk delim prev ps) : ∀ p ∈ ps, ∀ k c, p = .plus k c → 1 ≤ k := by
  induction ps generalizing prev with
  | nil => simp
  | cons q qs ih =>
    intro p hp k c e
    simp only [List.mem_cons] at hp
    rcases hp with rfl | hp
    · subst e; exact h.1.1
    · exact ih h.2.2 p hp k c e

theorem flatten_le_size (ls : List (List Tk)) : ls.flatten.length + ls.length ≤ size ls := by
  induction ls with
  | nil => simp [size]
  | cons l ls ih => simp only [size, List.map_cons, List.sum_cons, List.flatten_cons, List.length_append, List.length_cons] at ih ⊢; omega

theorem size_append (a b : List (List Tk)) : size (a ++ b) = size a + size b := by simp [size]

/-- a written line is read back -/
theorem replaceLine_written {delim : Tk → Bool} {ps : List Piece} (hok : lineOk delim none ps) {m : List Tk} {ms : List (List Tk)} (hw : write ps = m :: ms) (rest : List (List Tk)) (store : Store) :
    (if mayContainPass m then replaceLine delim m (ms ++ rest) store else some (m, ms ++ rest, store)) =
      some (encode store.length ps, rest, store ++ (passes ps).map some) := by
  have hrep : replaceLine delim m (ms ++ rest) store = some (encode store.length ps, rest, store ++ (passes ps).map some) := by
    apply replaceLoop_written ps none none 0 _ store m ms hok (.inl rfl) (by simp) (by simp) _ hw
    have hl : ps.length ≤ (write ps).flatten.length := by
      rcases length_write ps with h | ⟨p, hp, k, c, e, hk⟩
      · exact h
      · have := lineOk_mem hok p hp k c e; omega
    have h2 := flatten_le_size (m :: ms)
    rw [← List.cons_append, size_append]
    rw [hw] at hl
    simp only [List.length_cons] at h2
    omega
  split
  · exact hrep
  · rename_i hc
    rcases mayContain_written hok hw with h | h
    · exact absurd h hc
    · obtain ⟨e1, e2, e3, e4, _⟩ := write_plain hok h hw
      rw [e1, e4, ← e2, e3]; simp

theorem passes_append (a b : List Piece) : passes (a ++ b) = passes a ++ passes b := by
  induction a with
  | nil => rfl
  | cons x a ih =>
    rw [List.cons_append, passes, passes, ih]
    cases x.meaning <;> rfl

theorem restoreLines_written {delim : Tk → Bool} (rest : List (List Tk)) (fuel : Nat) : ∀ (lines : List (List Piece)) (pre : Store), (∀ ps ∈ lines, ps ≠ [] ∧ lineOk delim none ps) →
    pre.length + (passes lines.flatten).length ≤ 100000 →
    restoreLines delim (lines.length + fuel) (lines.flatMap write ++ rest) pre =
      (restoreLines delim fuel rest (pre ++ List.replicate (passes lines.flatten).length none)).map fun r => (lines.map (·.map Piece.meaning) ++ r.1, r.2) := by
  intro lines
  induction lines with
  | nil =>
    intro pre _ _
    simp [passes]
  | cons ps lines ih =>
    intro pre h hlen
    obtain ⟨hne, hok⟩ := h ps (by simp)
    obtain ⟨m, ms, hw⟩ := write_cons ps
    rw [List.flatten_cons, passes_append] at hlen ⊢
    simp only [List.length_append] at hlen ⊢
    rw [List.flatMap_cons, hw, List.cons_append, List.cons_append, List.append_assoc, List.length_cons, Nat.succ_add, restoreLines, replaceLine_written hok hw]
    simp only [Option.bind_some]
    rw [restoreTokens_encode ps none pre hok (by omega)]
    simp only [Option.bind_some]
    rw [ih (pre ++ List.replicate (passes ps).length none) (fun x hx => h x (by simp [hx])) (by simp; omega)]
    have hne' : ps.map Piece.meaning ≠ [] := by simpa using hne
    simp only [Option.map_map, List.map_cons, List.append_assoc, List.replicate_append_replicate, if_neg hne']
    rfl

end Verif.Passthrough

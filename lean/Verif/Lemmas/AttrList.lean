import Verif.Spec.AttrList
/-!
Lemmas about attribute lists.
-/
namespace Verif.AttrList
open TokenKind

/-- lengths of pieces -/
abbrev lens (rs : List (List Tk × Tk)) : List Nat := rs.map (fun p => p.1.length)

theorem popTo_spec (prev : Nat) (rs : List (List Tk × Tk)) (cur : List Tk) :
    ∃ r1 r2, rs = r1 ++ r2 ∧
      popTo prev (lens rs) cur.length = (lens r2, (withCommas r1.reverse ++ cur).length) ∧
      r2.length = min prev rs.length := by
  induction rs generalizing cur with
  | nil => exact ⟨[], [], rfl, by simp [popTo, lens, withCommas], by simp⟩
  | cons r rs ih =>
    by_cases h : (r :: rs).length > prev
    · obtain ⟨r1, r2, e1, e2, e3⟩ := ih (r.1 ++ r.2 :: cur)
      refine ⟨r :: r1, r2, by simp [e1], ?_, ?_⟩
      · have : popTo prev (lens (r :: rs)) cur.length = popTo prev (lens rs) (r.1 ++ r.2 :: cur).length := by
          simp only [lens, List.map_cons, popTo, List.length_cons, List.length_map] at h ⊢
          rw [if_pos (by omega)]
          congr 1
          simp only [List.length_append, List.length_cons]; omega
        rw [this, e2]
        simp [withCommas, List.flatMap_append]
      · simp only [List.length_cons] at h ⊢; omega
    · refine ⟨[], r :: rs, rfl, ?_, ?_⟩
      · simp only [lens, List.map_cons, popTo, List.length_cons, List.length_map] at h ⊢
        rw [if_neg (by omega)]
        simp [withCommas]
      · simp only [List.length_cons] at h ⊢; omega

/-- the pieces found so far, last first -/
def Inv (s : DelimSt) (pre : List Tk) (rs : List (List Tk × Tk)) (cur : List Tk) : Prop :=
  (∀ p ∈ rs, p.2.kind = Comma) ∧ pre = withCommas rs.reverse ++ cur ∧ s.ds = lens rs ∧ s.n = cur.length

theorem Inv.step {s pre rs cur} (h : Inv s pre rs cur) (t : Tk) :
    ∃ rs' cur', Inv (delimStep s t) (pre ++ [t]) rs' cur' := by
  obtain ⟨h1, h2, h3, h4⟩ := h
  have hplain : ∀ d sg, ∃ rs' cur', Inv { s with dbl := d, sgl := sg, n := s.n + 1 } (pre ++ [t]) rs' cur' :=
    fun d sg => ⟨rs, cur ++ [t], h1, by simp [h2], h3, by simp [h4]⟩
  have hpop : ∀ p d sg, ∃ rs' cur',
      Inv { s with ds := (popTo p s.ds (s.n + 1)).1, n := (popTo p s.ds (s.n + 1)).2, dbl := d, sgl := sg }
        (pre ++ [t]) rs' cur' := by
    intro p d sg
    obtain ⟨r1, r2, e1, e2, e3⟩ := popTo_spec p rs (cur ++ [t])
    have e : popTo p s.ds (s.n + 1) = (lens r2, (withCommas r1.reverse ++ (cur ++ [t])).length) := by
      rw [← e2, h3, h4]; simp
    refine ⟨r2, withCommas r1.reverse ++ (cur ++ [t]), ?_, ?_, ?_, ?_⟩
    · intro q hq; exact h1 q (by rw [e1]; simp [hq])
    · rw [h2, e1]; simp [withCommas, List.flatMap_append]
    · simp [e]
    · simp [e]
  unfold delimStep
  split
  · exact hplain _ _
  · exact hpop _ _ _
  · exact hplain _ _
  · exact hpop _ _ _
  · rename_i hk
    refine ⟨(cur, t) :: rs, [], ?_, ?_, ?_, rfl⟩
    · intro q hq
      rcases List.mem_cons.mp hq with e | e
      · subst e; exact hk
      · exact h1 q e
    · simp [h2, withCommas, List.flatMap_append]
    · simp [h3, lens, h4]
  · exact hplain _ _

theorem Inv.loop {s pre rs cur} (h : Inv s pre rs cur) (l : List Tk) :
    ∃ rs' cur', Inv (delimLoop s l) (pre ++ l.takeWhile (·.kind ≠ CloseBracket)) rs' cur' := by
  induction l generalizing s pre rs cur with
  | nil => exact ⟨rs, cur, by simpa [delimLoop] using h⟩
  | cons t ts ih =>
    by_cases hc : t.kind = CloseBracket
    · exact ⟨rs, cur, by simpa [delimLoop, hc] using h⟩
    · obtain ⟨rs', cur', h'⟩ := h.step t
      obtain ⟨rs2, cur2, h2⟩ := ih h'
      refine ⟨rs2, cur2, ?_⟩
      simpa [delimLoop, hc, List.takeWhile_cons] using h2

theorem delims_inv (line : List Tk) :
    ∃ ps cur, (∀ p ∈ ps, p.2.kind = Comma) ∧ line.takeWhile (·.kind ≠ CloseBracket) = withCommas ps ++ cur ∧
      (delimLoop {} line).ds = (lens ps).reverse := by
  obtain ⟨rs, cur, h1, h2, h3, _⟩ := Inv.loop (s := {}) (pre := []) (rs := []) (cur := [])
    ⟨by simp, rfl, rfl, rfl⟩ line
  refine ⟨rs.reverse, cur, fun p hp => h1 p (by simpa using hp), by simpa using h2, ?_⟩
  rw [h3]; simp [lens]

theorem cut_spec (ps : List (List Tk × Tk)) (hc : ∀ p ∈ ps, p.2.kind = Comma) (rest : List Tk) :
    cut (lens ps) (withCommas ps ++ rest) = some (ps.map (fun p => nonAttr p.1), rest) := by
  induction ps with
  | nil => rfl
  | cons p ps ih =>
    have ih := ih (fun q hq => hc q (by simp [hq]))
    have e : withCommas (p :: ps) ++ rest = p.1 ++ p.2 :: (withCommas ps ++ rest) := by
      simp [withCommas]
    rw [e]
    simp only [lens, List.map_cons, cut, List.length_append, List.length_cons]
    rw [if_neg (by omega)]
    simp only [List.drop_left, List.take_left, hc p (by simp)]
    simp [ih]

theorem takeWhile_append_drop (p : Tk → Bool) (l : List Tk) : ∃ r, l = l.takeWhile p ++ r :=
  ⟨l.dropWhile p, by simp⟩

/-- every closing bracket of `c` comes right after a backslash, and `c` does not end with a backslash -/
def escaped : List Tk → Bool
  | [] => true
  | [t] => t.kind ≠ Backslash
  | t :: u :: rest => (u.kind ≠ CloseBracket || t.kind = Backslash) && escaped (u :: rest)

theorem upToClose_spec (c : List Tk) (hne : c ≠ []) (he : escaped c = true) (close : Tk)
    (hcl : close.kind = CloseBracket) (rest : List Tk) :
    upToClose (c ++ close :: rest) = some (c, close :: rest) := by
  induction c with
  | nil => exact absurd rfl hne
  | cons t ts ih =>
    cases ts with
    | nil =>
      simp only [escaped, decide_eq_true_eq] at he
      simp [upToClose, hcl, he]
    | cons u us =>
      simp only [escaped, Bool.and_eq_true, Bool.or_eq_true, decide_eq_true_eq] at he
      have h := ih (by simp) he.2
      simp only [List.cons_append] at h ⊢
      rw [upToClose, if_neg (by rcases he.1 with h | h <;> simp [h]), h]
      rfl

theorem escaped_suffix {a b : List Tk} (h : escaped (a ++ b) = true) : escaped b = true := by
  induction a with
  | nil => exact h
  | cons t ts ih =>
    apply ih
    cases hts : ts ++ b with
    | nil => rfl
    | cons u us =>
      rw [List.cons_append, hts] at h
      simp only [escaped, Bool.and_eq_true] at h
      exact h.2

/-- the pieces of a list that fills the line -/
theorem pieces_full (c : List Tk) (close : Tk) :
    ∃ ps, Joined ps c ∧ pieces true (c ++ [close]) = some (ps.map nonAttr, [close]) := by
  obtain ⟨ps, cur, h1, h2, h3⟩ := delims_inv c
  obtain ⟨r, hr⟩ := takeWhile_append_drop (·.kind ≠ CloseBracket) c
  rw [h2] at hr
  refine ⟨ps.map (·.1) ++ [cur ++ r], ⟨ps, cur ++ r, rfl, h1, by rw [← List.append_assoc]; exact hr⟩, ?_⟩
  have e : findDelimiters (c ++ [close]) = lens ps := by
    simp [findDelimiters, h3]
  have e2 : c ++ [close] = withCommas ps ++ (cur ++ r ++ [close]) := by
    conv => lhs; rw [hr]
    simp
  simp only [pieces, e]
  rw [e2, cut_spec ps h1]
  simp [lastPiece, nonAttr, Function.comp_def]

theorem escaped_head {c : List Tk} {t : Tk} {b : List Tk} (h : escaped (c ++ t :: b) = true)
    (hk : t.kind = CloseBracket) : c = [] ∨ (c.getLast?.map (·.kind)) = some Backslash := by
  induction c with
  | nil => exact Or.inl rfl
  | cons x xs ih =>
    right
    cases xs with
    | nil =>
      simp only [List.cons_append, List.nil_append, escaped, Bool.and_eq_true, Bool.or_eq_true,
        decide_eq_true_eq] at h
      rcases h.1 with h1 | h1
      · exact absurd hk h1
      · simp [h1]
    | cons y ys =>
      have h2 := escaped_suffix (a := [x]) (b := y :: ys ++ t :: b) (by simpa using h)
      rcases ih h2 with h3 | h3
      · cases h3
      · simpa [List.getLast?_cons_cons] using h3

theorem delimLoop_dropLast (c : List Tk) (close : Tk) (rest : List Tk) (hcl : close.kind = CloseBracket) :
    delimLoop {} (c ++ close :: rest).dropLast = delimLoop {} c := by
  have : ∀ s, delimLoop s (c ++ close :: rest).dropLast = delimLoop s c := by
    induction c with
    | nil =>
      intro s
      cases rest with
      | nil => rfl
      | cons r rs => simp [delimLoop, hcl]
    | cons t ts ih =>
      intro s
      have : (t :: ts ++ close :: rest).dropLast = t :: (ts ++ close :: rest).dropLast := by
        rw [List.cons_append, List.dropLast_cons_of_ne_nil (by simp)]
      rw [this]
      simp only [delimLoop]
      split
      · rfl
      · exact ih _
  exact this {}

theorem takeWhile_getLast_of (ps : List (List Tk × Tk)) (hc : ∀ p ∈ ps, p.2.kind = Comma) (hne : ps ≠ []) :
    ((withCommas ps).getLast?.map (·.kind)) = some Comma := by
  obtain ⟨init, last, rfl⟩ : ∃ init last, ps = init ++ [last] :=
    ⟨ps.dropLast, ps.getLast hne, (List.dropLast_concat_getLast hne).symm⟩
  simp [withCommas, List.flatMap_append, hc last (by simp)]

/-- the pieces of a list inside a line -/
theorem pieces_inline (c : List Tk) (he : escaped c = true) (hfirst : c.head?.map (·.kind) ≠ some CloseBracket)
    (close : Tk) (hcl : close.kind = CloseBracket) (rest : List Tk) :
    ∃ ps, Joined ps c ∧ pieces false (c ++ close :: rest) = some (ps.map nonAttr, close :: rest) := by
  obtain ⟨ps, cur, h1, h2, h3⟩ := delims_inv c
  obtain ⟨r, hr⟩ := takeWhile_append_drop (·.kind ≠ CloseBracket) c
  rw [h2] at hr
  refine ⟨ps.map (·.1) ++ [cur ++ r], ⟨ps, cur ++ r, rfl, h1, by rw [← List.append_assoc]; exact hr⟩, ?_⟩
  have e : findDelimiters (c ++ close :: rest) = lens ps := by
    rw [findDelimiters, delimLoop_dropLast c close rest hcl, h3, List.reverse_reverse]
  have e2 : c ++ close :: rest = withCommas ps ++ (cur ++ r ++ close :: rest) := by
    conv => lhs; rw [hr]
    simp
  have hl : lastPiece false (cur ++ r ++ close :: rest) = some (cur ++ r, close :: rest) := by
    cases hcr : cur ++ r with
    | nil => simp [lastPiece, hcl]
    | cons t ts =>
      have hs : escaped (t :: ts) = true := by
        apply escaped_suffix (a := withCommas ps)
        rw [← hcr, ← List.append_assoc, ← hr]; exact he
      have ht : t.kind ≠ CloseBracket := by
        intro hk
        have hr' : c = withCommas ps ++ t :: ts := by rw [hr, List.append_assoc, hcr]
        rcases escaped_head (by rw [← hr']; exact he) hk with h | h
        · rw [hr', h] at hfirst; simp [hk] at hfirst
        · by_cases hp : ps = []
          · subst hp; simp [withCommas] at h
          · rw [takeWhile_getLast_of ps h1 hp] at h; cases h
      have := upToClose_spec (t :: ts) (by simp) hs close hcl rest
      simp only [lastPiece, List.cons_append, if_neg ht] at this ⊢
      exact this
  simp only [pieces, e]
  rw [e2, cut_spec ps h1]
  simp only [Option.bind_eq_bind, Option.bind_some, hl]
  simp [Function.comp_def]

/-! ### where the list is cut -/

/-- the variable for one kind of quotation mark -/
def DelimSt.slot (s : DelimSt) (q : TokenKind) : Option Nat := if q = DoubleQuote then s.dbl else s.sgl

theorem quote_cases {k : TokenKind} (h : isQuote k = true) : k = DoubleQuote ∨ k = SingleQuote := by
  simpa [isQuote] using h

theorem other_ne (q : TokenKind) : other q ≠ q := by
  unfold other; split
  · rename_i h; rw [h]; decide
  · rename_i h; exact fun e => h e.symm

theorem step_open {s : DelimSt} {t : Tk} (hq : isQuote t.kind = true) (hs : s.slot t.kind = none) :
    (delimStep s t).ds = s.ds ∧ (delimStep s t).n = s.n + 1 ∧ (delimStep s t).slot t.kind = some s.ds.length ∧
      (delimStep s t).slot (other t.kind) = s.slot (other t.kind) := by
  rcases quote_cases hq with h | h <;> simp [DelimSt.slot, h, other] at hs ⊢ <;>
    (unfold delimStep; cases hd : s.dbl <;> cases hg : s.sgl <;> simp_all)

theorem step_close {s : DelimSt} {t : Tk} {p : Nat} (hq : isQuote t.kind = true) (hs : s.slot t.kind = some p) :
    (delimStep s t).ds = (popTo p s.ds (s.n + 1)).1 ∧ (delimStep s t).n = (popTo p s.ds (s.n + 1)).2 ∧
      (delimStep s t).slot t.kind = none ∧ (delimStep s t).slot (other t.kind) = s.slot (other t.kind) := by
  rcases quote_cases hq with h | h <;> simp [DelimSt.slot, h, other] at hs ⊢ <;>
    (unfold delimStep; cases hd : s.dbl <;> cases hg : s.sgl <;> simp_all)

theorem step_comma {s : DelimSt} {t : Tk} (hk : t.kind = Comma) :
    (delimStep s t).ds = s.n :: s.ds ∧ (delimStep s t).n = 0 ∧ ∀ q, (delimStep s t).slot q = s.slot q := by
  unfold delimStep DelimSt.slot; simp [hk]

theorem step_plain {s : DelimSt} {t : Tk} (hq : isQuote t.kind = false) (hk : t.kind ≠ Comma) :
    (delimStep s t).ds = s.ds ∧ (delimStep s t).n = s.n + 1 ∧ ∀ q, (delimStep s t).slot q = s.slot q := by
  have h1 : t.kind ≠ DoubleQuote := by intro h; simp [isQuote, h] at hq
  have h2 : t.kind ≠ SingleQuote := by intro h; simp [isQuote, h] at hq
  unfold delimStep DelimSt.slot
  split <;> simp_all

/-- how the variables of the code relate to the position of the specification -/
def Rel (s : DelimSt) (ts : List Tk) (base : List (List Tk × Tk)) (cur : List Tk) :
    Option (TokenKind × Bool) → Prop
  | none => s.ds = lens base ∧ s.n = cur.length ∧
      ∀ q, isQuote q = true → s.slot q = none ∨ occurs q ts = false
  | some (q, even) => isQuote q = true ∧ occurs q ts = true ∧ s.slot q = some base.length ∧
      (∃ above cur', s.ds = lens (above ++ base) ∧ s.n = cur'.length ∧ cur = withCommas above.reverse ++ cur' ∧
        ∀ p ∈ above, p.2.kind = Comma) ∧
      (even = true → s.slot (other q) = none ∨ occurs (other q) ts = false) ∧
      (even = false → ∃ p, s.slot (other q) = some p ∧ base.length ≤ p)

theorem occurs_cons_false {q : TokenKind} {t : Tk} {ts : List Tk} (h : occurs q (t :: ts) = false) :
    t.kind ≠ q ∧ occurs q ts = false := by
  simp only [occurs, List.any_cons, Bool.or_eq_false_iff, decide_eq_false_iff_not] at h
  exact h

theorem occurs_cons_ne {q : TokenKind} {t : Tk} {ts : List Tk} (h : occurs q (t :: ts) = true)
    (hne : t.kind ≠ q) : occurs q ts = true := by
  simp only [occurs, List.any_cons, Bool.or_eq_true, decide_eq_true_eq] at h
  exact h.resolve_left hne

theorem other_other {q : TokenKind} (h : isQuote q = true) : other (other q) = q := by
  rcases quote_cases h with h | h <;> subst h <;> decide

theorem other_quote {q : TokenKind} (h : isQuote q = true) : isQuote (other q) = true := by
  rcases quote_cases h with h | h <;> subst h <;> decide

theorem quote_or_other {q k : TokenKind} (h : isQuote q = true) (hk : isQuote k = true) : k = q ∨ k = other q := by
  rcases quote_cases h with h | h <;> rcases quote_cases hk with h' | h' <;> subst h <;> subst h' <;> decide

theorem loop_split (ts : List Tk) (s : DelimSt) (base : List (List Tk × Tk)) (cur : List Tk)
    (mode : Option (TokenKind × Bool)) (hb : ∀ p ∈ base, p.2.kind = Comma)
    (hcl : ∀ t ∈ ts, t.kind ≠ CloseBracket) (hr : Rel s ts base cur mode) (hn : noStray mode ts = true) :
    ∃ rs last, (∀ p ∈ rs, p.2.kind = Comma) ∧ (delimLoop s ts).ds = lens rs ∧
      base.reverse.map (·.1) ++ topSplit cur (mode.map (·.1)) ts = rs.reverse.map (·.1) ++ [last] ∧
      withCommas base.reverse ++ cur ++ ts = withCommas rs.reverse ++ last := by
  induction ts generalizing s base cur mode with
  | nil =>
    cases mode with
    | none => exact ⟨base, cur, hb, hr.1, by simp [topSplit], by simp⟩
    | some m =>
      obtain ⟨q, even⟩ := m
      have := hr.2.1
      simp [occurs] at this
  | cons t ts ih =>
    have hnc : t.kind ≠ CloseBracket := hcl t (by simp)
    have hcl' : ∀ t ∈ ts, t.kind ≠ CloseBracket := fun u hu => hcl u (by simp [hu])
    simp only [delimLoop, if_neg hnc]
    cases mode with
    | none =>
      obtain ⟨h1, h2, h3⟩ := hr
      simp only [Option.map_none, topSplit]
      by_cases hk : t.kind = Comma
      · have hq : isQuote t.kind = false := by rw [hk]; rfl
        obtain ⟨e1, e2, e3⟩ := step_comma (s := s) hk
        rw [if_pos hk]
        obtain ⟨rs, last, g1, g2, g3, g4⟩ := ih (delimStep s t) ((cur, t) :: base) [] none
          (by intro p hp; rcases List.mem_cons.mp hp with h | h
              · subst h; exact hk
              · exact hb p h) hcl'
          ⟨by rw [e1, h1, h2]; rfl, by rw [e2]; rfl, fun q hq' => by
            rw [e3]; exact (h3 q hq').imp_right (fun h => (occurs_cons_false h).2)⟩
          (by simpa [noStray, hq] using hn)
        refine ⟨rs, last, g1, g2, by simpa using g3, ?_⟩
        rw [← g4]; simp [withCommas, List.flatMap_append]
      · rw [if_neg hk]
        by_cases hq : isQuote t.kind = true
        · have hslot : s.slot t.kind = none := by
            rcases h3 _ hq with h | h
            · exact h
            · exact absurd rfl (occurs_cons_false h).1
          obtain ⟨e1, e2, e3, e4⟩ := step_open hq hslot
          by_cases ho : occurs t.kind ts = true
          · rw [if_pos ⟨hq, ho⟩]
            obtain ⟨rs, last, g1, g2, g3, g4⟩ := ih (delimStep s t) base (cur ++ [t]) (some (t.kind, true)) hb hcl'
              ⟨hq, ho, by rw [e3, h1]; simp [lens], ⟨[], cur ++ [t], by rw [e1, h1]; rfl, by rw [e2, h2]; simp,
                by simp [withCommas], by simp⟩,
                fun _ => by rw [e4]; exact (h3 _ (other_quote hq)).imp_right (fun h => (occurs_cons_false h).2),
                fun h => Bool.noConfusion h⟩
              (by simpa [noStray, hq, ho] using hn)
            exact ⟨rs, last, g1, g2, by simpa using g3, by rw [← g4]; simp⟩
          · rw [if_neg (by simp [ho])]
            obtain ⟨rs, last, g1, g2, g3, g4⟩ := ih (delimStep s t) base (cur ++ [t]) none hb hcl'
              ⟨by rw [e1, h1], by rw [e2, h2]; simp, fun q hq' => by
                rcases quote_or_other hq hq' with h | h
                · subst h; right; simpa using ho
                · subst h; rw [e4]; exact (h3 _ hq').imp_right (fun h => (occurs_cons_false h).2)⟩
              (by simpa [noStray, hq, ho] using hn)
            exact ⟨rs, last, g1, g2, by simpa using g3, by rw [← g4]; simp⟩
        · have hq' : isQuote t.kind = false := by simpa using hq
          rw [if_neg (by simp [hq'])]
          obtain ⟨e1, e2, e3⟩ := step_plain (s := s) hq' hk
          obtain ⟨rs, last, g1, g2, g3, g4⟩ := ih (delimStep s t) base (cur ++ [t]) none hb hcl'
            ⟨by rw [e1, h1], by rw [e2, h2]; simp, fun q hqq => by
              rw [e3]; exact (h3 q hqq).imp_right (fun h => (occurs_cons_false h).2)⟩
            (by simpa [noStray, hq'] using hn)
          exact ⟨rs, last, g1, g2, by simpa using g3, by rw [← g4]; simp⟩
    | some m =>
      obtain ⟨q, even⟩ := m
      obtain ⟨hq, ho, hs, ⟨above, cur', h1, h2, h3, h3'⟩, h4, h5⟩ := hr
      simp only [Option.map_some, topSplit]
      by_cases hk : t.kind = q
      · -- the quoted string ends
        obtain ⟨e1, e2, e3, e4⟩ := step_close (s := s) (t := t) (by rw [hk]; exact hq) (by rw [hk]; exact hs)
        obtain ⟨r1, r2, p1, p2, p3⟩ := popTo_spec base.length (above ++ base) (cur' ++ [t])
        have hr2 : r2 = base ∧ r1 = above := by
          have : r1.length = above.length := by
            have := congrArg List.length p1
            simp only [List.length_append] at this p3; omega
          exact ⟨(List.append_inj p1 this.symm).2.symm, (List.append_inj p1 this.symm).1.symm⟩
        have e : popTo base.length s.ds (s.n + 1) = (lens base, (withCommas above.reverse ++ (cur' ++ [t])).length) := by
          rw [h1, h2, ← hr2.1, ← hr2.2]
          have := p2
          simp only [List.length_append, List.length_cons, List.length_nil] at this ⊢
          rw [← this]
          rw [hr2.1, hr2.2]
        simp only [noStray, if_pos hk, Bool.and_eq_true, Bool.or_eq_true, Bool.not_eq_true'] at hn
        rw [if_pos hk]
        obtain ⟨rs, last, g1, g2, g3, g4⟩ := ih (delimStep s t) base (cur ++ [t]) none hb hcl'
          ⟨by rw [e1, e], by rw [e2, e, h3]; simp, fun q' hq' => by
            rcases quote_or_other hq hq' with h | h
            · subst h; left; rw [← hk]; exact e3
            · subst h
              rcases hn.1 with hev | hoc
              · rcases h4 hev with h | h
                · left; rw [← hk, e4, hk]; exact h
                · right; exact (occurs_cons_false h).2
              · right; exact hoc⟩ hn.2
        exact ⟨rs, last, g1, g2, by simpa using g3, by rw [← g4]; simp⟩
      · have ho' := occurs_cons_ne ho hk
        rw [if_neg hk]
        simp only [noStray, if_neg hk] at hn
        by_cases hko : t.kind = other q
        · rw [if_pos hko] at hn
          have hqt : isQuote t.kind = true := by rw [hko]; exact other_quote hq
          cases even with
          | true =>
            have hsl : s.slot t.kind = none := by
              rcases h4 rfl with h | h
              · rw [hko]; exact h
              · exact absurd hko (occurs_cons_false h).1
            obtain ⟨e1, e2, e3, e4⟩ := step_open hqt hsl
            obtain ⟨rs, last, g1, g2, g3, g4⟩ := ih (delimStep s t) base (cur ++ [t]) (some (q, false)) hb hcl'
              ⟨hq, ho', by rw [hko, other_other hq] at e4; rw [e4]; exact hs,
                ⟨above, cur' ++ [t], by rw [e1, h1], by rw [e2, h2]; simp, by rw [h3]; simp, h3'⟩,
                fun h => Bool.noConfusion h,
                fun _ => ⟨s.ds.length, by rw [← hko]; exact e3, by rw [h1]; simp [lens]⟩⟩ hn
            exact ⟨rs, last, g1, g2, by simpa using g3, by rw [← g4]; simp⟩
          | false =>
            obtain ⟨p, hp1, hp2⟩ := h5 rfl
            obtain ⟨e1, e2, e3, e4⟩ := step_close (s := s) (t := t) hqt (by rw [hko]; exact hp1)
            obtain ⟨r1, r2, p1, p2, p3⟩ := popTo_spec p (above ++ base) (cur' ++ [t])
            obtain ⟨above', ha⟩ : ∃ above', above = r1 ++ above' ∧ r2 = above' ++ base := by
              have hl : r1.length ≤ above.length := by
                have := congrArg List.length p1
                simp only [List.length_append] at this p3; omega
              rcases List.append_eq_append_iff.mp p1 with ⟨a, h1, h2⟩ | ⟨a, h1, h2⟩
              · have : a = [] := by
                  have := congrArg List.length h1
                  simp only [List.length_append] at this
                  exact List.eq_nil_of_length_eq_zero (by omega)
                subst this
                exact ⟨[], by simpa using h1.symm, by simpa using h2.symm⟩
              · exact ⟨a, h1, h2⟩
            have e : popTo p s.ds (s.n + 1) = (lens r2, (withCommas r1.reverse ++ (cur' ++ [t])).length) := by
              rw [← p2, h1, h2]; simp
            obtain ⟨rs, last, g1, g2, g3, g4⟩ := ih (delimStep s t) base (cur ++ [t]) (some (q, true)) hb hcl'
              ⟨hq, ho', by rw [hko, other_other hq] at e4; rw [e4]; exact hs,
                ⟨above', withCommas r1.reverse ++ (cur' ++ [t]), by rw [e1, e, ha.2], by rw [e2, e],
                  by rw [h3, ha.1]; simp [withCommas, List.flatMap_append],
                  fun x hx => h3' x (by rw [ha.1]; simp [hx])⟩,
                fun _ => Or.inl (by rw [← hko]; exact e3),
                fun h => Bool.noConfusion h⟩ hn
            exact ⟨rs, last, g1, g2, by simpa using g3, by rw [← g4]; simp⟩
        · rw [if_neg hko] at hn
          have hqt : isQuote t.kind = false := by
            cases h : isQuote t.kind with
            | false => rfl
            | true => exact ((quote_or_other hq h).elim (fun h => (hk h).elim) (fun h => (hko h).elim))
          by_cases hc : t.kind = Comma
          · obtain ⟨e1, e2, e3⟩ := step_comma (s := s) hc
            obtain ⟨rs, last, g1, g2, g3, g4⟩ := ih (delimStep s t) base (cur ++ [t]) (some (q, even)) hb hcl'
              ⟨hq, ho', by rw [e3]; exact hs,
                ⟨(cur', t) :: above, [], by rw [e1, h1, h2]; rfl, by rw [e2]; rfl,
                  by rw [h3]; simp [withCommas, List.flatMap_append], by
                    intro p hp; rcases List.mem_cons.mp hp with h | h
                    · subst h; exact hc
                    · exact h3' p h⟩,
                fun h => by rw [e3]; exact (h4 h).imp_right (fun h => (occurs_cons_false h).2),
                fun h => by rw [e3]; exact h5 h⟩ hn
            exact ⟨rs, last, g1, g2, by simpa using g3, by rw [← g4]; simp⟩
          · obtain ⟨e1, e2, e3⟩ := step_plain (s := s) hqt hc
            obtain ⟨rs, last, g1, g2, g3, g4⟩ := ih (delimStep s t) base (cur ++ [t]) (some (q, even)) hb hcl'
              ⟨hq, ho', by rw [e3]; exact hs,
                ⟨above, cur' ++ [t], by rw [e1, h1], by rw [e2, h2]; simp, by rw [h3]; simp, h3'⟩,
                fun h => by rw [e3]; exact (h4 h).imp_right (fun h => (occurs_cons_false h).2),
                fun h => by rw [e3]; exact h5 h⟩ hn
            exact ⟨rs, last, g1, g2, by simpa using g3, by rw [← g4]; simp⟩

/-- the pieces are those of the specification -/
theorem pieces_split (fullLine : Bool) (c : List Tk) (hcl : ∀ t ∈ c, t.kind ≠ CloseBracket)
    (hn : noStray none c = true) (close : Tk) (hk : close.kind = CloseBracket) (rest : List Tk)
    (hf : fullLine = true → rest = []) (hl : fullLine = false → c.getLast?.map (·.kind) ≠ some Backslash) :
    pieces fullLine (c ++ close :: rest) = some ((topSplit [] none c).map nonAttr, close :: rest) := by
  obtain ⟨rs, last, g1, g2, g3, g4⟩ := loop_split c {} [] [] none (by simp) hcl
    ⟨rfl, rfl, fun q _ => Or.inl (by simp [DelimSt.slot])⟩ hn
  simp only [List.reverse_nil, List.map_nil, List.nil_append, Option.map_none, withCommas, List.flatMap_nil] at g3 g4
  have e : findDelimiters (c ++ close :: rest) = lens rs.reverse := by
    rw [findDelimiters, delimLoop_dropLast c close rest hk, g2]; simp [lens]
  have g1' : ∀ p ∈ rs.reverse, p.2.kind = Comma := fun p hp => g1 p (by simpa using hp)
  have e2 : c ++ close :: rest = withCommas rs.reverse ++ (last ++ close :: rest) := by
    conv => lhs; rw [g4]
    simp [withCommas]
  have hlast : lastPiece fullLine (last ++ close :: rest) = some (last, close :: rest) := by
    cases fullLine with
    | true => rw [hf rfl]; simp [lastPiece]
    | false =>
      cases last with
      | nil => simp [lastPiece, hk]
      | cons t ts =>
        have hmem : ∀ u ∈ t :: ts, u.kind ≠ CloseBracket := fun u hu => hcl u (by rw [g4]; simp [hu])
        have hesc : escaped (t :: ts) = true := by
          have hlast : (t :: ts).getLast?.map (·.kind) ≠ some Backslash := by
            have := hl rfl
            rw [g4, List.getLast?_append] at this
            simpa [List.getLast?_cons] using this
          clear g4 g3 e e2
          induction ts generalizing t with
          | nil => simpa [escaped] using hlast
          | cons u us ih =>
            simp only [escaped, Bool.and_eq_true, Bool.or_eq_true, decide_eq_true_eq]
            exact ⟨Or.inl (hmem u (by simp)), ih u (fun v hv => hmem v (by simp [hv]))
              (by simpa [List.getLast?_cons_cons] using hlast)⟩
        have := upToClose_spec (t :: ts) (by simp) hesc close hk rest
        simp only [lastPiece, List.cons_append, if_neg (hmem t (by simp))] at this ⊢
        exact this
  simp only [pieces, e]
  rw [e2, cut_spec rs.reverse g1', g3]
  simp only [Option.bind_eq_bind, Option.bind_some, hlast]
  simp [Function.comp_def]

end Verif.AttrList

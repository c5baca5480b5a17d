import Verif.Lemmas.Columns
/-! C40 — column specifications expand as written, and widths are shares of 100 percent. -/
namespace Verif.Props
open Verif.Columns

/-- C40, columns: a `cols` attribute made of written specifications yields, in order, as many columns as each multiplier
says, all with the alignments, the width and the style that were written (the defaults for what was not).

Missing: multiplier 0, widths above 255 (see below), and numbers of columns that are no `i32`. A text of digits alone is
a number of columns (`C40_number`), blank text is no specification. -/
theorem C40_columns_partial (first : Padded) (rest : List (Bool × Padded)) (h : first.ok ∧ first.written.inRange)
    (hr : ∀ x ∈ rest, x.2.ok ∧ x.2.written.inRange)
    (hblank : ∃ c ∈ colsText first rest, isWs c = false) (hdigits : ∃ c ∈ colsText first rest, c.isDigit = false) :
    parseColSpecs (colsText first rest) =
      (first :: rest.map Prod.snd).flatMap fun p => List.replicate p.written.times p.written.column := by
  unfold parseColSpecs
  rw [if_neg, if_neg, splitParts_cols first rest h.1 (fun x hx => (hr x hx).1)]
  · simp only [List.flatMap_cons]
    rw [parseColSpec_text first h.1 h.2]
    congr 1
    rw [List.flatMap_map, List.flatMap_map]
    clear hblank hdigits h
    induction rest with
    | nil => rfl
    | cons x xs ih =>
      simp only [List.flatMap_cons]
      rw [parseColSpec_text x.2 (hr x (by simp)).1 (hr x (by simp)).2, ih (fun y hy => hr y (by simp [hy]))]
  · simp only [List.all_eq_true, Classical.not_forall]
    obtain ⟨c, hc, hd⟩ := hdigits
    exact ⟨c, hc, by simp [hd]⟩
  · simp only [List.all_eq_true, Classical.not_forall]
    obtain ⟨c, hc, hd⟩ := hblank
    exact ⟨c, hc, by simp [hd]⟩

/-- The hypotheses of `C40_columns_partial` hold for `2*>.>3e, 15%;~`, which gives four columns. -/
example :
    let first : Padded := { written := { multiplier := some ['2'], h := some .right, v := some .bottom,
                                          width := some (.parts ['3']), style := some .emphasis } }
    let rest : List (Bool × Padded) :=
      [(false, { before := [' '], written := { width := some (.percent ['1', '5']) } }), (true, { written := { width := some .auto } })]
    colsText first rest = "2*>.>3e, 15%;~".toList ∧ (first.ok ∧ first.written.inRange) ∧
    (∀ x ∈ rest, x.2.ok ∧ x.2.written.inRange) ∧
    parseColSpecs (colsText first rest) = [⟨.proportional 3, .right, .bottom, .emphasis⟩, ⟨.proportional 3, .right, .bottom, .emphasis⟩,
      ⟨.percentage 15, .left, .top, .default⟩, ⟨.auto, .left, .top, .default⟩] := by
  refine ⟨rfl, ⟨⟨?_, ?_, ?_, ?_⟩, ?_, ?_, ?_⟩, ?_, by decide⟩
  · simp
  · simp
  · intro ds e; cases e; exact ⟨by simp, by simp⟩
  · intro ds e; cases e; exact ⟨by simp, by simp⟩
  · decide
  · decide
  · intro ds e; simp only [Option.some.injEq, WrittenWidth.parts.injEq, reduceCtorEq, or_false] at e; subst e; decide
  · intro x hx
    simp only [List.mem_cons, List.not_mem_nil, or_false] at hx
    rcases hx with rfl | rfl
    · refine ⟨⟨by simp; decide, by simp, by simp, ?_⟩, by decide, by decide, ?_⟩
      · intro w e; cases e; exact ⟨by simp, by simp⟩
      · intro ds e; simp only [Option.some.injEq, WrittenWidth.percent.injEq, reduceCtorEq, false_or] at e; subst e; decide
    · refine ⟨⟨by simp, by simp, by simp, ?_⟩, by decide, by decide, ?_⟩
      · intro w e; cases e; trivial
      · intro ds e; simp at e

/-- C40, a bare number: so many default columns. -/
theorem C40_number (n : Nat) (h : n ≤ 2147483647) : parseColSpecs (Nat.toDigits 10 n) = List.replicate n {} := by
  have hne : Nat.toDigits 10 n ≠ [] := Nat.toDigits_ne_nil
  have hd : ∀ c ∈ Nat.toDigits 10 n, c.isDigit = true := fun c hc => Nat.isDigit_of_mem_toDigits (by decide) (by decide) hc
  unfold parseColSpecs
  rw [if_neg, if_pos]
  · rw [parseNumber_value (g := i32Max) ⟨hne, hd⟩ (by rw [valueOf, Nat.ofDigitChars_ten_toDigits]; exact h), valueOf, Nat.ofDigitChars_ten_toDigits]
    rfl
  · simpa using hd
  · cases hl : Nat.toDigits 10 n with
    | nil => exact absurd hl hne
    | cons c cs =>
      have := (digit_facts (hd c (by simp [hl]))).2.2.2.2.2.1
      simp [this]

/-- C40: whatever is not of the form of a specification stands for one default column. -/
theorem C40_malformed (part : List Char) (h : ∀ p : Padded, p.ok → p.text ≠ part) : parseColSpec part = [{}] := by
  unfold parseColSpec
  split
  · rfl
  · cases hc : captures part with
    | none => rfl
    | some c =>
      obtain ⟨p, hp, he, _⟩ := captures_read hc
      exact absurd he (h p hp)

example : parseColSpec "1x".toList = [{}] := by decide
example : ∀ p : Padded, p.ok → p.text ≠ "1x".toList := by
  intro p hp he
  have := captures_text p hp
  rw [he, show captures "1x".toList = none by decide] at this
  exact absurd this (by simp)

/-- C40, widths: if the written widths add up to at most 255 and not all are zero (or some column is automatic), then the
shares of all columns are not negative and add up to 100 percent, those of columns with a width are in proportion to the
widths, and all automatic columns get the same share.

Missing: sums above 255 and widths that are all zero, see below. -/
theorem C40_shares_partial (ws : List Width) (h : widthSum ws ≤ 255) (hz : 0 < widthSum ws ∨ .auto ∈ ws) :
    ∃ shares : List Share, distribute ws = some shares ∧ shares.length = ws.length ∧ total shares = some 100 ∧
      (∃ perUnit auto : Rat, 0 ≤ perUnit ∧ 0 ≤ auto ∧ ∀ i (hi : i < ws.length), shares[i]? = some (match ws[i] with
        | .proportional n | .percentage n => .percentage (some (n * perUnit))
        | .auto => .auto (some auto))) := by
  -- the general shape: a divisor and a share for automatic columns
  have main : ∀ (a : Rat) (d : Nat), d ≠ 0 → 0 ≤ a → (widthSum ws * 100 / d + ws.count .auto * a : Rat) = 100 →
      (∃ shares : List Share, some (ws.map (shareOf (some a) d)) = some shares ∧ shares.length = ws.length ∧ total shares = some 100 ∧
      (∃ perUnit auto : Rat, 0 ≤ perUnit ∧ 0 ≤ auto ∧ ∀ i (hi : i < ws.length), shares[i]? = some (match ws[i] with
        | .proportional n | .percentage n => .percentage (some (n * perUnit))
        | .auto => .auto (some auto)))) := by
    intro a d hd ha hsum
    have hq : (d : Rat) ≠ 0 := by exact_mod_cast hd
    refine ⟨_, rfl, by simp, by rw [total_shares a d hd, hsum], 100 / d, a, ?_, ha, ?_⟩
    · have : (0 : Rat) < d := by exact_mod_cast Nat.pos_of_ne_zero hd
      rw [Rat.div_def]
      exact Rat.mul_nonneg (by decide) (Rat.le_of_lt (Rat.inv_pos.mpr this))
    · intro i hi
      rw [List.getElem?_map, List.getElem?_eq_getElem hi, Option.map_some]
      cases ws[i] with
      | auto => rfl
      | proportional n => simp only [shareOf, div?, if_neg hq]; congr 3; grind
      | percentage n => simp only [shareOf, div?, if_neg hq]; congr 3; grind
  unfold distribute
  rw [divisor_eq ws none (by simpa using h)]
  simp only [Option.getD_none, Nat.zero_add, Option.bind_some, true_and]
  by_cases hall : ∀ w ∈ ws, w = .auto
  · -- only automatic columns
    rw [if_pos hall]
    simp only [autoWidth]
    have hs : widthSum ws = 0 := by
      clear main h hz
      induction ws with
      | nil => rfl
      | cons w ws ih =>
        have := hall w (by simp); subst this
        simpa [widthSum] using ih (fun x hx => hall x (by simp [hx]))
    have hc : ws.count .auto ≠ 0 := by
      rcases hz with hz | hz
      · omega
      · have := List.count_pos_iff.mpr hz; omega
    have hq : ((numAuto ws : Nat) : Rat) ≠ 0 := by unfold numAuto; exact_mod_cast hc
    have hp : (0 : Rat) < (numAuto ws : Nat) := by unfold numAuto; exact_mod_cast Nat.pos_of_ne_zero hc
    simp only [div?, if_neg hq]
    have := main (100 / (numAuto ws : Nat)) 1 (by decide)
      (by rw [Rat.div_def]; exact Rat.mul_nonneg (by decide) (Rat.le_of_lt (Rat.inv_pos.mpr hp)))
      (by rw [hs]; unfold numAuto at hq ⊢; grind)
    -- the divisor does not matter: no column has a width
    have heq : ws.map (shareOf (some (100 / (numAuto ws : Nat))) ((none : Option Nat).getD 0)) =
        ws.map (shareOf (some (100 / (numAuto ws : Nat))) 1) := by
      apply List.map_congr_left
      intro w hw; rw [hall w hw]; rfl
    rw [heq]; exact this
  · rw [if_neg hall]
    simp only [autoWidth]
    by_cases hk : numAuto ws = 0
    · have hpos : 0 < widthSum ws := by
        rcases hz with hz | hz
        · exact hz
        · exact absurd (List.count_pos_iff.mpr hz) (by unfold numAuto at hk; omega)
      rw [if_pos (Or.inr hk)]
      simp only [Option.getD_some]
      exact main 0 (widthSum ws) (by omega) (by decide)
        (by have : ((widthSum ws : Nat) : Rat) ≠ 0 := by { exact_mod_cast Nat.ne_of_gt hpos }
            grind)
    · by_cases hb : 100 < widthSum ws
      · rw [if_pos (Or.inl ⟨Nat.pos_of_ne_zero hk, hb⟩)]
        simp only [Option.getD_some]
        exact main 0 (widthSum ws) (by omega) (by decide)
          (by have : ((widthSum ws : Nat) : Rat) ≠ 0 := by { exact_mod_cast (by omega : widthSum ws ≠ 0) }
              grind)
      · rw [if_neg (by omega)]
        have hq : ((numAuto ws : Nat) : Rat) ≠ 0 := by exact_mod_cast hk
        have hp : (0 : Rat) < (numAuto ws : Nat) := by exact_mod_cast Nat.pos_of_ne_zero hk
        simp only [div?, if_neg hq, Option.getD_some]
        have hle : ((widthSum ws : Nat) : Rat) ≤ 100 := by exact_mod_cast (by omega : widthSum ws ≤ 100)
        refine main _ 100 (by decide) ?_ ?_
        · rw [Rat.div_def]
          exact Rat.mul_nonneg (by grind) (Rat.le_of_lt (Rat.inv_pos.mpr hp))
        · have h100 : ((100 : Nat) : Rat) = 100 := rfl
          unfold numAuto at hq ⊢
          grind

/-- The hypotheses hold for `20%,~,~`. -/
example : widthSum [.percentage 20, .auto, .auto] ≤ 255 ∧ (0 < widthSum [.percentage 20, .auto, .auto] ∨ Width.auto ∈ [Width.percentage 20, .auto, .auto]) ∧
    distribute [.percentage 20, .auto, .auto] = some [.percentage (some 20), .auto (some 40), .auto (some 40)] := by
  refine ⟨by decide, Or.inl (by decide), by decide +kernel⟩

/-- Widths that add up to more than 255 stop the program (in a build without overflow checks, the sum wraps). -/
theorem C40_violated_overflow (ws : List Width) (hw : ∀ w ∈ ws, ∀ n, (w = .proportional n ∨ w = .percentage n) → n ≤ 255)
    (h : 255 < widthSum ws) : distribute ws = none := by
  unfold distribute
  rw [divisor_overflow ws none (by simp) hw (by simpa using h)]
  rfl

example : distribute ((parseColSpecs "100,100,100".toList).map (·.width)) = none := by decide +kernel

/-- Columns of width zero have no share: the width printed is `NaN`. -/
theorem C40_violated_zero : distribute ((parseColSpecs "0,0".toList).map (·.width)) = some [.percentage none, .percentage none] := by
  decide +kernel

/-- A width above 255 counts as 1: in `300,100` the second column is the wide one. -/
theorem C40_violated_wide : (parseColSpecs "300,100".toList).map (·.width) = [.proportional 1, .proportional 100] := by decide +kernel

/-- `0*` is one column. -/
theorem C40_violated_no_columns : (parseColSpecs "0*".toList).length = 1 := by decide +kernel

end Verif.Props

import Verif.Spec.Ifeval
namespace Verif.Props
open Verif.Ifeval

/-- C10, in part: for two integers, two strings, or two comparable floats, every operator holds exactly when the
order of the operands says so; hence `==`/`!=`, `<`/`>=` and `>`/`<=` are negations of each other. Missing: operands
of different types, booleans and empty operands under `<` etc. (see the violations). -/
theorem C10_comparisons_follow_order_partial {F : Type} (pcmp : F → F → Option Ordering) (a b : Value F)
    (o : Ordering) (h : Ordered pcmp a b o) (op : Op) :
    eval pcmp a op b = op.means o ∧ eval pcmp a op.neg b = !eval pcmp a op b := by
  cases h with
  | intLt h =>
    rename_i a b
    have h1 : a ≠ b := by omega
    have h2 : ¬ b < a := by omega
    have h3 : a ≤ b := by omega
    have h4 : ¬ b ≤ a := by omega
    have h5 : (a == b) = false := by simp [h1]
    cases op <;> simp [eval, Op.means, Op.neg, bne, h, h2, h3, h4, h5]
  | intEq => cases op <;> simp [eval, Op.means, Op.neg]
  | intGt h =>
    rename_i a b
    have h1 : a ≠ b := by omega
    have h2 : ¬ a < b := by omega
    have h3 : b ≤ a := by omega
    have h4 : ¬ a ≤ b := by omega
    have h5 : (a == b) = false := by simp [h1]
    cases op <;> simp [eval, Op.means, Op.neg, bne, h, h2, h3, h4, h5]
  | strLt h =>
    rename_i a b
    have h1 : a ≠ b := by rintro rfl; exact List.lt_irrefl _ h
    have h2 : ¬ b < a := fun h' => List.lt_asymm h h'
    have h3 : a ≤ b := List.le_of_lt h
    have h4 : ¬ b ≤ a := List.not_le.mpr h
    have h5 : (a == b) = false := by simp [h1]
    cases op <;> simp [eval, Op.means, Op.neg, bne, h, h2, h3, h4, h5]
  | strEq =>
    rename_i a
    have h1 : ¬ a < a := List.lt_irrefl a
    cases op <;> simp [eval, Op.means, Op.neg, h1]
  | strGt h =>
    rename_i a b
    have h1 : a ≠ b := by rintro rfl; exact List.lt_irrefl _ h
    have h2 : ¬ a < b := fun h' => List.lt_asymm h h'
    have h3 : b ≤ a := List.le_of_lt h
    have h4 : ¬ a ≤ b := List.not_le.mpr h
    have h5 : (a == b) = false := by simp [h1]
    cases op <;> simp [eval, Op.means, Op.neg, bne, h, h2, h3, h4, h5]
  | float h => cases op <;> cases o <;> simp [eval, Op.means, Op.neg, h]

example : Ordered (fun (_ _ : Unit) => none) (.str "abc".toList) (.str "abd".toList) .lt :=
  .strLt (by decide)

/-- C10: each operator is the one written, and nothing else is an operator. -/
theorem C10_operator_spelling (s : List Char) (op : Op) : Op.fromStr s = some op ↔ s = op.spelling.toList := by
  constructor
  · intro h
    unfold Op.fromStr at h
    split at h <;> simp only [Option.some.injEq, reduceCtorEq] at h <;> (subst h; rfl)
  · rintro rfl; cases op <;> rfl

/-- C10: `!=` is the negation of `==` for all integers, strings, booleans and floats (also those that do not
compare). -/
theorem C10_ne_negates_eq_partial {F : Type} (pcmp : F → F → Option Ordering) (i j : Int) (s t : List Char)
    (a b : Bool) (x y : F) :
    eval pcmp (.int i) .ne (.int j) = !eval pcmp (.int i) .eq (.int j) ∧
    eval pcmp (.str s) .ne (.str t) = !eval pcmp (.str s) .eq (.str t) ∧
    eval pcmp (.bool a) .ne (.bool b) = !eval pcmp (.bool a) .eq (.bool b) ∧
    eval pcmp (.float x) .ne (.float y) = !eval pcmp (.float x) .eq (.float y) :=
  ⟨rfl, rfl, rfl, rfl⟩

/-- C10: `==` and `!=` of booleans and of empty operands are negations of each other. -/
theorem C10_bool_and_nil_partial {F : Type} (pcmp : F → F → Option Ordering) (a b : Bool) (v : Value F) :
    eval pcmp (.bool a) .eq (.bool b) = (a == b) ∧ eval pcmp (.bool a) .ne (.bool b) = !(a == b) ∧
    (eval pcmp .nil .eq v = true ↔ v = .nil) ∧ (eval pcmp .nil .ne v = true ↔ v ≠ .nil) := by
  refine ⟨rfl, by simp [eval, bne], ?_, ?_⟩ <;> cases v <;> simp [eval]

/-- C10 is violated: operands of different types are neither equal nor different. -/
theorem C10_mixed_types_violated {F : Type} (pcmp : F → F → Option Ordering) :
    eval pcmp (.int 1) .eq (.str ['1']) = false ∧ eval pcmp (.int 1) .ne (.str ['1']) = false := by
  simp [eval]

/-- C10 is violated: `!=` with an empty operand depends on the side it is on. -/
theorem C10_nil_asymmetric_violated {F : Type} (pcmp : F → F → Option Ordering) :
    eval pcmp .nil .ne (.int 1) = true ∧ eval pcmp (.int 1) .ne .nil = false := by
  simp [eval]

/-- C10 is violated: an operand that is a single quote character panics. -/
theorem C10_lone_quote_violated :
    coerce (F := Unit) (fun _ => none) ['\''] = none ∧ coerce (F := Unit) (fun _ => none) ['"'] = none := by
  decide

/-- C10, no panic: every other operand is coerced to a value. -/
theorem C10_coerce_total_partial {F : Type} (parseFloat : List Char → Option F) (e : List Char)
    (h1 : e ≠ ['\'']) (h2 : e ≠ ['"']) : ∃ v, coerce parseFloat e = some v := by
  unfold coerce
  repeat' split
  all_goals try exact ⟨_, rfl⟩
  rename_i hq hl
  match e, hl with
  | [], hl => simp at hq
  | [c], hl =>
    rcases hq with ⟨h, _⟩ | ⟨h, _⟩ <;> simp at h <;> subst h
    · exact absurd rfl h1
    · exact absurd rfl h2
  | _ :: _ :: _, hl => simp only [List.length_cons] at hl; omega

/-- C10: quoting works: a quoted operand of any length is the string between the quotes (unless it reads as a float). -/
theorem C10_quoted_string {F : Type} (parseFloat : List Char → Option F) (s : List Char) (q : Char)
    (hq : q = '\'' ∨ q = '"') (hf : parseFloat (q :: (s ++ [q])) = none) :
    coerce parseFloat (q :: (s ++ [q])) = some (.str s) := by
  have hp : parseInt (q :: (s ++ [q])) = none := by
    rcases hq with rfl | rfl <;> simp [parseInt]
  unfold coerce
  rw [if_neg (by rcases hq with rfl | rfl <;> simp), if_neg (by rcases hq with rfl | rfl <;> simp),
    if_neg (by simp), hp]
  simp only [hf]
  rw [if_pos (by rcases hq with rfl | rfl <;> simp [List.getLast?_cons]), if_neg (by simp)]
  simp

private theorem digits_fold (l : List Char) (n : Nat) :
    l.foldl (fun n c => n * 10 + (c.toNat - 48)) n = Nat.ofDigitChars 10 l n := by
  rw [Nat.ofDigitChars_eq_foldl]
  congr 1
  funext n c
  simp [Nat.mul_comm]

private theorem not_any_digits (n : Nat) : (Nat.toDigits 10 n).any (fun c => !c.isDigit) = false := by
  rw [List.any_eq_false]
  intro c hc
  simp [Nat.isDigit_of_mem_toDigits (by decide) (by decide) hc]

/-- C10: a decimal number, with or without a sign, is the integer it denotes. -/
theorem C10_integers {F : Type} (parseFloat : List Char → Option F) (n : Nat) :
    (n < 2 ^ 63 → coerce parseFloat (Nat.toDigits 10 n) = some (.int n) ∧
      coerce parseFloat ('+' :: Nat.toDigits 10 n) = some (.int n)) ∧
    (n ≤ 2 ^ 63 → coerce parseFloat ('-' :: Nat.toDigits 10 n) = some (.int (-n))) := by
  have hne : Nat.toDigits 10 n ≠ [] := Nat.toDigits_ne_nil
  have hd : ∀ c ∈ Nat.toDigits 10 n, c.isDigit = true := fun c hc =>
    Nat.isDigit_of_mem_toDigits (by decide) (by decide) hc
  have hv : Nat.ofDigitChars 10 (Nat.toDigits 10 n) 0 = n := by simp
  have hna := not_any_digits n
  have hplain : n < 2 ^ 63 → parseInt (Nat.toDigits 10 n) = some (n : Int) := by
    intro h
    unfold parseInt
    split
    · rename_i ds hds; exact absurd (hd '+' (by rw [hds]; simp)) (by decide)
    · rename_i ds hds; exact absurd (hd '-' (by rw [hds]; simp)) (by decide)
    · simp [hne, hna, digits_fold, hv, h]
  have hnot : ∀ s : String, s = "true" ∨ s = "false" → Nat.toDigits 10 n ≠ s.toList := by
    rintro s (rfl | rfl) h
    · have := hd 't' (by rw [h]; decide); revert this; decide
    · have := hd 'f' (by rw [h]; decide); revert this; decide
  refine ⟨fun h => ⟨?_, ?_⟩, fun h => ?_⟩
  · unfold coerce
    rw [if_neg (hnot _ (.inl rfl)), if_neg (hnot _ (.inr rfl)), if_neg hne, hplain h]
  · unfold coerce
    rw [if_neg (by simp), if_neg (by simp), if_neg (by simp)]
    simp [parseInt, hne, hna, digits_fold, hv, h]
  · unfold coerce
    rw [if_neg (by simp), if_neg (by simp), if_neg (by simp)]
    simp [parseInt, hne, hna, digits_fold, hv, h]

example : coerce (F := Unit) (fun _ => none) "'world'".toList = some (.str "world".toList) ∧
    coerce (F := Unit) (fun _ => none) "-12".toList = some (.int (-12)) := by decide

end Verif.Props

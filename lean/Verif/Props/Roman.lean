import Verif.Model.Roman
import Verif.Spec.Roman
/-! C51: roman numerals. -/
namespace Verif.Props
open Verif.Roman Verif.Spec.Roman

/-- Values add when the second part starts with a letter no greater than the
last one of the first. -/
private theorem value_append : ∀ (a b : List Char), (∀ x y, a.getLast? = some x → b.head? = some y → letter y ≤ letter x) →
    value (a ++ b) = value a + value b
  | [], b, _ => by simp [value]
  | [c], [], _ => by simp [value]
  | [c], d :: b, h => by
    have := h c d rfl rfl
    simp only [List.cons_append, List.nil_append, value]
    rw [if_neg (by omega)]
  | c :: d :: a, b, h => by
    have ih := value_append (d :: a) b (by
      intro x y hx hy
      exact h x y (by rw [List.getLast?_cons_cons]; exact hx) hy)
    simp only [List.cons_append] at ih ⊢
    simp only [value]
    rw [ih]; omega

private theorem head_append (a b : List Char) : (a ++ b).head? = a.head?.or b.head? := by
  cases a <;> simp

private theorem value_m (k : Nat) : value (List.replicate k 'M') = 1000 * k := by
  induction k with
  | zero => rfl
  | succ k ih =>
    rw [List.replicate_succ, ← List.singleton_append, value_append, ih]
    · simp [value, letter]; omega
    · intro x y hx hy
      simp at hx; subst hx
      cases k with
      | zero => simp at hy
      | succ k => simp [List.replicate_succ] at hy; subst hy; exact Int.le_refl _

private theorem tables : ∀ d < 10,
    value (digit 'C' 'D' 'M' d) = 100 * d ∧ value (digit 'X' 'L' 'C' d) = 10 * d ∧ value (digit 'I' 'V' 'X' d) = d ∧
    (∀ x ∈ (digit 'C' 'D' 'M' d).getLast?, 100 ≤ letter x) ∧ (∀ x ∈ (digit 'X' 'L' 'C' d).getLast?, 10 ≤ letter x) ∧
    (∀ x ∈ (digit 'C' 'D' 'M' d).head?, letter x ≤ 500) ∧
    (∀ x ∈ (digit 'X' 'L' 'C' d).head?, letter x ≤ 50) ∧ (∀ x ∈ (digit 'I' 'V' 'X' d).head?, letter x ≤ 5) := by
  decide

/-- **C51** (meaning): for every number from 1 to 3999 a numeral is printed, and
it denotes that number. -/
theorem C51_value (n : Nat) (h1 : 1 ≤ n) (h2 : n ≤ 3999) : ∃ s, toRoman n = some s ∧ value s = n := by
  refine ⟨_, by rw [toRoman, if_neg (by omega)], ?_⟩
  obtain ⟨c1, _, _, c4, _, c6, _, _⟩ := tables (n / 100 % 10) (by omega)
  obtain ⟨_, x2, _, _, x5, _, x7, _⟩ := tables (n / 10 % 10) (by omega)
  obtain ⟨_, _, i3, _, _, _, _, i8⟩ := tables (n % 10) (by omega)
  have m : ∀ x ∈ (List.replicate (n / 1000) 'M').getLast?, 1000 ≤ letter x := by
    intro x hx
    have := List.eq_of_mem_replicate (List.mem_of_getLast? hx)
    subst this; decide
  have hd : ∀ {a b : List Char} {x : Char}, (a ++ b).getLast? = some x → x ∈ b.getLast? ∨ (b = [] ∧ x ∈ a.getLast?) := by
    intro a b x h
    cases b with
    | nil => right; simpa using h
    | cons y b => left; rw [List.getLast?_append] at h; simpa using h
  have e1 : value (List.replicate (n / 1000) 'M' ++ digit 'C' 'D' 'M' (n / 100 % 10)) = 1000 * (n / 1000 : Nat) + 100 * (n / 100 % 10 : Nat) := by
    rw [value_append, value_m, c1]
    intro x y hx hy
    have := m x hx; have := c6 y hy; omega
  have l1 : ∀ x ∈ (List.replicate (n / 1000) 'M' ++ digit 'C' 'D' 'M' (n / 100 % 10)).getLast?, 100 ≤ letter x := by
    intro x hx
    rcases hd hx with h | ⟨_, h⟩
    · exact c4 x h
    · have := m x h; omega
  have e2 := value_append (List.replicate (n / 1000) 'M' ++ digit 'C' 'D' 'M' (n / 100 % 10)) (digit 'X' 'L' 'C' (n / 10 % 10)) (by
    intro x y hx hy
    have := l1 x hx; have := x7 y hy; omega)
  have l2 : ∀ x ∈ (List.replicate (n / 1000) 'M' ++ digit 'C' 'D' 'M' (n / 100 % 10) ++ digit 'X' 'L' 'C' (n / 10 % 10)).getLast?, 10 ≤ letter x := by
    intro x hx
    rcases hd hx with h | ⟨_, h⟩
    · exact x5 x h
    · have := l1 x h; omega
  rw [value_append, e2, e1, x2, i3]
  · omega
  · intro x y hx hy
    have := l2 x hx; have := i8 y hy; omega

/-- **C51** (distinctness): distinct numbers from 1 to 3999 print distinct
numerals. -/
theorem C51_injective (m n : Nat) (hm1 : 1 ≤ m) (hm2 : m ≤ 3999) (hn1 : 1 ≤ n) (hn2 : n ≤ 3999)
    (h : toRoman m = toRoman n) : m = n := by
  obtain ⟨s, hs, vs⟩ := C51_value m hm1 hm2
  obtain ⟨t, ht, vt⟩ := C51_value n hn1 hn2
  rw [hs, ht] at h
  injection h with h
  subst h
  omega

/-- **C51** (range): outside 1..3999 the library reports an error; the caller
only asks within the range (Numbering, `partPrefix`). -/
theorem C51_range (n : Nat) : (toRoman n).isSome = true ↔ 1 ≤ n ∧ n ≤ 3999 := by
  unfold toRoman
  split <;> simp <;> omega

private def hasRun (c : Char) : List Char → Bool
  | [] => false
  | x :: xs => [c, c, c, c].isPrefixOf (x :: xs) || hasRun c xs

private theorem hasRun_of {c : Char} {t : List Char} : ∀ (s : List Char), hasRun c (s ++ (List.replicate 4 c ++ t)) = true
  | [] => by simp [List.replicate, hasRun, List.isPrefixOf]
  | x :: s => by simp only [List.cons_append, hasRun, hasRun_of s, Bool.or_true]

private def canonicalB (s : List Char) : Bool :=
  ['I', 'X', 'C', 'M'].all (fun c => !hasRun c s) && ['V', 'L', 'D'].all (fun c => s.count c ≤ 1) &&
    s.all fun c => ['I', 'V', 'X', 'L', 'C', 'D', 'M'].contains c

private theorem canonical_digits : ∀ a < 4, ∀ b < 10, ∀ c < 10, ∀ d < 10,
    canonicalB (List.replicate a 'M' ++ digit 'C' 'D' 'M' b ++ digit 'X' 'L' 'C' c ++ digit 'I' 'V' 'X' d) = true := by
  decide +kernel

/-- **C51** (usual form): the numerals printed are in the usual form. -/
theorem C51_canonical (n : Nat) (s : List Char) (h : toRoman n = some s) : Canonical s := by
  unfold toRoman at h
  split at h
  · cases h
  · injection h with h
    subst h
    have := canonical_digits (n / 1000) (by omega) (n / 100 % 10) (by omega) (n / 10 % 10) (by omega) (n % 10) (by omega)
    revert this
    generalize List.replicate (n / 1000) 'M' ++ digit 'C' 'D' 'M' (n / 100 % 10) ++ digit 'X' 'L' 'C' (n / 10 % 10) ++ digit 'I' 'V' 'X' (n % 10) = s
    intro h
    simp only [canonicalB, Bool.and_eq_true, List.all_eq_true] at h
    obtain ⟨⟨h1, h2⟩, h3⟩ := h
    refine ⟨fun c hc => ?_, fun c hc => ?_, fun c hc => ?_⟩
    · have := h1 c hc
      rintro ⟨a, t, rfl⟩
      rw [List.append_assoc, hasRun_of] at this
      cases this
    · simpa using h2 c hc
    · have := h3 c hc
      exact List.contains_iff_mem.mp this

/-- the numerals are the usual ones -/
example : toRoman 1994 = some "MCMXCIV".toList ∧ toRoman 4 = some "IV".toList ∧ toRoman 3888 = some "MMMDCCCLXXXVIII".toList := by
  decide +kernel

end Verif.Props

import Verif.Model.LevelOffset
import Verif.Lemmas.IncludeText
namespace Verif.Props
open Verif.LevelOffset

/-! ### C14 -/

/-- what an author writes for the level offset -/
inductive OffsetEntry where
  /-- `:leveloffset: +n` -/
  | plus (n : Nat)
  /-- `:leveloffset: -n` -/
  | minus (n : Nat)
  /-- `:leveloffset: n` -/
  | set (n : Nat)
  /-- `:!leveloffset:` -/
  | unset

/-- how it is written -/
def OffsetEntry.value : OffsetEntry → AttrValue
  | plus n => .str ('+' :: Nat.toDigits 10 n)
  | minus n => .str ('-' :: Nat.toDigits 10 n)
  | set n => .str (Nat.toDigits 10 n)
  | unset => .bool false

/-- what it means -/
def OffsetEntry.effect (cur : Int) : OffsetEntry → Int
  | plus n => cur + n
  | minus n => cur - n
  | set n => n
  | unset => 0

/-- the number in an entry is an `i8` -/
def OffsetEntry.Small : OffsetEntry → Prop
  | plus n | minus n | set n => n ≤ 127
  | unset => True

private theorem parseDigits_toDigits (n : Nat) : parseDigits (Nat.toDigits 10 n) = some n := by
  unfold parseDigits
  rw [if_neg]
  · have h := Nat.ofDigitChars_ten_toDigits (n := n)
    rw [Nat.ofDigitChars_eq_foldl] at h
    conv at h => lhs; arg 1; ext a b; rw [Nat.mul_comm]
    exact congrArg some h
  · rintro (h | h)
    · exact Nat.toDigits_ne_nil h
    · obtain ⟨c, hc, hd⟩ := List.any_eq_true.mp h
      have := Nat.isDigit_of_mem_toDigits (by decide) (by decide) hc
      simp [this] at hd

private theorem parseI8_toDigits (n : Nat) (h : n ≤ 127) : parseI8 (Nat.toDigits 10 n) = some (n : Int) := by
  have hp := parseDigits_toDigits n
  unfold parseI8
  cases hd : Nat.toDigits 10 n with
  | nil => exact absurd hd Nat.toDigits_ne_nil
  | cons c cs =>
    have hc := Verif.IncludeText.digit_facts n c (by rw [hd]; simp)
    have h1 : c ≠ '+' := by rintro rfl; have := hc.1; revert this; decide
    have h2 : c ≠ '-' := by rintro rfl; have := hc.1; revert this; decide
    rw [hd] at hp
    simp only [if_neg h1, if_neg h2, hp]
    simp [Option.filter, inI8]
    omega

private theorem inI8_iff (n : Int) : inI8 n = true ↔ -128 ≤ n ∧ n ≤ 127 := by simp [inI8]

private theorem adjust_entry (cur : Int) (e : OffsetEntry) (h : e.Small) (hr : inI8 (e.effect cur) = true) :
    adjust cur e.value = some (e.effect cur) := by
  cases e with
  | plus n =>
    simp only [OffsetEntry.value, adjust, if_true, parseI8_toDigits n h, Option.getD_some, checked]
    exact if_pos hr
  | minus n =>
    simp only [OffsetEntry.value, adjust, if_true, parseI8_toDigits n h, Option.getD_some, checked]
    rw [if_neg (by decide)]
    exact if_pos hr
  | set n =>
    have hp := parseI8_toDigits n h
    simp only [OffsetEntry.value]
    cases hd : Nat.toDigits 10 n with
    | nil => exact absurd hd Nat.toDigits_ne_nil
    | cons c cs =>
      have hc := Verif.IncludeText.digit_facts n c (by rw [hd]; simp)
      have h1 : c ≠ '+' := by rintro rfl; have := hc.1; revert this; decide
      have h2 : c ≠ '-' := by rintro rfl; have := hc.1; revert this; decide
      rw [hd] at hp
      simp only [adjust, if_neg h1, if_neg h2, hp, Option.getD_some]
      rfl
  | unset => rfl

/-- one step of a document, as far as offsets are concerned -/
inductive OffsetEvent where
  | entry (e : OffsetEntry)
  /-- an include without, or with, a `leveloffset` attribute -/
  | include (o : Option OffsetEntry)

def OffsetEvent.run (st : State) : OffsetEvent → Option State
  | entry e => assign st e.value
  | .include none => pushInclude st none
  | .include (some e) =>
    match e.value with
    | .str s => pushInclude st (some s)
    | .bool _ => none

/-- running a history -/
def runOffsets (st : State) : List OffsetEvent → Option State
  | [] => some st
  | e :: es => (e.run st).bind fun st' => runOffsets st' es

/-- the document offset after a history -/
def docOffset (cur : Int) : List OffsetEvent → Int
  | [] => cur
  | .entry e :: es => docOffset (e.effect cur) es
  | .include _ :: es => docOffset cur es

/-- the own offsets of the includes of a history -/
def includeOffsets : List OffsetEvent → List Int
  | [] => []
  | .entry _ :: es => includeOffsets es
  | .include none :: es => 0 :: includeOffsets es
  | .include (some e) :: es => e.effect 0 :: includeOffsets es

/-- numbers are small and the document offset stays an `i8` -/
def OffsetsSmall (cur : Int) : List OffsetEvent → Prop
  | [] => True
  | .entry e :: es => e.Small ∧ inI8 (e.effect cur) = true ∧ OffsetsSmall (e.effect cur) es
  | .include none :: es => OffsetsSmall cur es
  | .include (some e) :: es => e.Small ∧ e.value ≠ .bool false ∧ OffsetsSmall cur es

private theorem run_offsets (es : List OffsetEvent) (st : State) (h : OffsetsSmall st.ctx es) :
    runOffsets st es = some ⟨docOffset st.ctx es, st.sources ++ includeOffsets es⟩ := by
  induction es generalizing st with
  | nil => simp [runOffsets, docOffset, includeOffsets]
  | cons e es ih =>
    cases e with
    | entry e =>
      obtain ⟨h1, h2, h3⟩ := h
      simp only [runOffsets, OffsetEvent.run, assign, adjust_entry _ e h1 h2, Option.bind_eq_bind, Option.bind_some,
        Option.pure_def]
      rw [ih _ h3]; rfl
    | «include» o =>
      cases o with
      | none =>
        simp only [runOffsets, OffsetEvent.run, pushInclude, Option.bind_eq_bind, Option.bind_some, Option.pure_def]
        rw [ih ⟨st.ctx, st.sources ++ [0]⟩ h]; simp [docOffset, includeOffsets]
      | some e =>
        obtain ⟨h1, h2, h3⟩ := h
        have h0 : inI8 (e.effect 0) = true := by
          clear ih h3 h2
          rw [inI8_iff]
          cases e <;> simp only [OffsetEntry.effect, OffsetEntry.Small] at * <;> omega
        have ha := adjust_entry 0 e h1 h0
        cases hv : e.value with
        | bool b => cases e <;> simp_all [OffsetEntry.value]
        | str s =>
          rw [hv] at ha
          simp only [runOffsets, OffsetEvent.run, hv, pushInclude, ha, Option.bind_eq_bind, Option.bind_some,
            Option.pure_def]
          rw [ih ⟨st.ctx, st.sources ++ [e.effect 0]⟩ h3]; simp [docOffset, includeOffsets]

private theorem adjusted_eq (o : Int) (n : Nat) (h : inI8 (n + o) = true) : adjusted o n = some (n + o).toNat := by
  unfold adjusted
  split
  · rename_i h0; subst h0; simp
  · simp only [checked, h, if_true, Option.map_some]
    split
    · congr 1; omega
    · rfl

/-- C14, in part: after any history of offset entries and includes, a heading written at level `n` in the `k`-th
source has level `n` plus the document offset plus the offset of that source, and never below 0, if the document
offset alone does not make it negative (or the include offset is not positive) and no sum leaves the range of an
`i8`. The offset of an include affects its own source only: it is "restored" outside. Missing: offsets of the
including files, clamping in the middle and overflow; see the violations. -/
theorem C14_heading_level_partial (es : List OffsetEvent) (h : OffsetsSmall 0 es) (k : Nat) (o : Int)
    (hk : (0 :: includeOffsets es)[k]? = some o) (n : Nat)
    (hmid : 0 ≤ n + docOffset 0 es ∨ o ≤ 0)
    (hr : inI8 (n + docOffset 0 es) = true)
    (hr' : inI8 ((n + docOffset 0 es).toNat + o) = true) :
    (runOffsets ⟨0, [0]⟩ es).bind (fun st => headingLevel st k n) = some (n + docOffset 0 es + o).toNat := by
  rw [run_offsets es ⟨0, [0]⟩ h]
  have hs : [0] ++ includeOffsets es = 0 :: includeOffsets es := rfl
  simp only [Option.bind_some, headingLevel, Option.bind_eq_bind, adjusted_eq _ n hr, hs, hk, adjusted_eq _ _ hr']
  congr 1
  omega

example : OffsetsSmall 0 [.entry (.plus 1), .include (some (.minus 2)), .entry .unset] ∧
    docOffset 0 [.entry (.plus 1), .include (some (.minus 2))] = 1 ∧
    (0 :: includeOffsets [.entry (.plus 1), .include (some (.minus 2))])[1]? = some (-2) := by
  refine ⟨?_, by decide, by decide⟩
  simp [OffsetsSmall, OffsetEntry.Small, OffsetEntry.effect, OffsetEntry.value, inI8]

/-- C14 is violated: when the document offset alone would make the level negative it is first cut to 0, so the
offsets do not add up. -/
theorem C14_clamped_between_violated :
    headingLevel ⟨-3, [0, 2]⟩ 1 2 = some 2 ∧ ((2 : Int) + -3 + 2).toNat = 1 := by decide

/-- C14 is violated: a file included with `leveloffset=+1` that itself includes another one: the headings of the inner
file (source 2) are not shifted. -/
theorem C14_nested_include_violated :
    (runOffsets ⟨0, [0]⟩ [.include (some (.plus 1)), .include none]).bind (fun st => headingLevel st 2 1) = some 1 := by
  decide

/-- C14 is violated: a large enough offset makes the program panic. -/
theorem C14_overflow_violated :
    (runOffsets ⟨0, [0]⟩ [.entry (.plus 127), .entry (.plus 1)]) = none ∧
    (runOffsets ⟨0, [0]⟩ [.entry (.plus 127)]).bind (fun st => headingLevel st 0 1) = none := by decide

end Verif.Props

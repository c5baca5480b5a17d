import Verif.Spec.Diagnostics
import Verif.Props.Lexer
/-! C37 — what becomes of diagnostics; C63 — how they are printed. -/
namespace Verif.Props
open Verif.Diagnostics Verif.Lexer

mutual
theorem runActs_loose : ∀ (as : List Act) (es : List Diagnostic), runActs false es as = .ok (es ++ raised as)
  | [], es => by simp [runActs, raised]
  | a :: as, es => by
    unfold runActs
    rw [runAct_loose a es]
    simp only [runActs_loose as, raised, List.append_assoc]
theorem runAct_loose : ∀ (a : Act) (es : List Diagnostic), runAct false es a = .ok (es ++ raisedBy a)
  | .report d, es => by simp [runAct, raisedBy]
  | .cell k acts, es => by
    unfold runAct
    rw [runActs_loose acts []]
    simp [raisedBy, reline]
  | .readFirst acts, es => by
    unfold runAct
    rw [runActs_loose acts es]
    simp [raisedBy]
end

/-- C37, not strict: the parse succeeds, and all diagnostics are kept in the order in which they were raised. -/
theorem C37_all_kept (acts : List Act) : parse false acts = .ok (raised acts) := by
  unfold parse; rw [runActs_loose]; rfl

/-- what a strict parse should return -/
def strictResult (es : List Diagnostic) : List Diagnostic → Res
  | [] => .ok es
  | d :: _ => .err [d]

mutual
theorem runActs_strict : ∀ (as : List Act) (es : List Diagnostic), quietStart as = true →
    runActs true es as = strictResult es (raised as)
  | [], es, _ => rfl
  | a :: as, es, h => by
    unfold quietStart at h
    simp only [Bool.and_eq_true] at h
    unfold runActs
    rw [runAct_strict a es h.1]
    unfold raised
    cases hr : raisedBy a with
    | nil => simp only [strictResult, List.nil_append]; exact runActs_strict as es h.2
    | cons d ds => simp [strictResult]
theorem runAct_strict : ∀ (a : Act) (es : List Diagnostic), quietAct a = true →
    runAct true es a = strictResult es (raisedBy a)
  | .report d, es, _ => by simp [runAct, raisedBy, strictResult]
  | .cell k acts, es, h => by
    unfold quietAct at h
    unfold runAct
    rw [runActs_strict acts [] h]
    unfold raisedBy
    cases hr : raised acts with
    | nil => simp [strictResult, reline]
    | cons d ds => simp [strictResult, reline]
  | .readFirst acts, es, h => by
    unfold quietAct at h
    simp only [Bool.and_eq_true, List.isEmpty_iff] at h
    unfold runAct
    rw [runActs_strict acts es h.2]
    unfold raisedBy
    rw [h.1]
    rfl
end

/-- C37, strict: if a diagnostic is raised, the first one — and no other — is returned as the error, otherwise the parse
succeeds without warnings.

Missing: diagnostics in the first paragraph of a document of type `inline`, see `C37_violated_inline`. -/
theorem C37_first_returned_partial (acts : List Act) (h : quietStart acts = true) :
    parse true acts = match raised acts with
      | [] => .ok []
      | d :: _ => .err [d] := by
  unfold parse
  rw [runActs_strict acts [] h]
  cases raised acts <;> rfl

section
def exD1 : Diagnostic := ⟨3, [97], [98], 0, 1, [102]⟩
def exD2 : Diagnostic := ⟨1, [97], [99], 0, 1, [102]⟩
example : parse false [.readFirst [], .report exD1, .cell 7 [.report exD2, .cell 2 [.report exD1]], .report exD2] =
    .ok [exD1, { exD2 with lineNum := 8 }, { exD1 with lineNum := 12 }, exD2] := by decide
example : quietStart [.cell 7 [.report exD2, .report exD1], .report exD2] = true ∧
    parse true [.cell 7 [.report exD2, .report exD1], .report exD2] = .err [{ exD2 with lineNum := 8 }] := by decide
end

/-- In strict mode, a problem in the first paragraph of an inline document (a missing include, for example) panics. -/
theorem C37_violated_inline (d : Diagnostic) (as : List Act) : parse true (.readFirst [.report d] :: as) = .panic := by
  simp [parse, runActs, runAct]

/-! ### C63 -/

theorem number_length (n : Nat) : (number n).length = (Nat.toDigits 10 n).length := by simp [number]

theorem linePad_eq (n : Nat) (h : n < 100000) : linePad n = (number n).length + 3 := by
  rw [number_length]
  have hle : ∀ k, 0 < k → ((Nat.toDigits 10 n).length ≤ k ↔ n < 10 ^ k) := fun k hk =>
    Nat.length_toDigits_le_iff (by decide) hk
  have h1 := hle 1 (by decide)
  have h2 := hle 2 (by decide)
  have h3 := hle 3 (by decide)
  have h4 := hle 4 (by decide)
  have h5 := hle 5 (by decide)
  have h0 : 0 < (Nat.toDigits 10 n).length := List.length_pos_iff.mpr Nat.toDigits_ne_nil
  simp only [Nat.reducePow] at h1 h2 h3 h4 h5
  unfold linePad
  split
  · omega
  · split
    · omega
    · split
      · omega
      · split <;> omega

/-- C63 for ASCII lines without trailing white space and line numbers up to 99999: a diagnostic for a part `mid` of a line
is printed as a header that names the file, the line and the column, the line, and, below it, carets exactly under
`mid` (the line and the carets are indented by as many bytes), followed by the message.

Missing: lines with other characters and line numbers from 100000, see the theorems below. -/
theorem C63_underline_partial (before pre mid post after file message : List UInt8)
    (hb : before = [] ∨ before.getLast? = some 10) (ha : after = [] ∨ after.head? = some 10 ∨ after.head? = some 13)
    (hline : ∀ b ∈ pre ++ mid ++ post, 32 ≤ b ∧ b < 127) (htrim : (pre ++ mid ++ post).getLast? ≠ some 32)
    (hnum : before.count 10 < 99999) :
    ∃ d, errAt (before ++ (pre ++ mid ++ post) ++ after) file message (before.length + pre.length)
        (before.length + pre.length + mid.length) = some d ∧
      ∃ gap indent indent' : List UInt8, indent.length = indent'.length ∧ plainText d =
        gap ++ bs "--> " ++ file ++ bs ":" ++ number (1 + before.count 10) ++ bs ":" ++ number (pre.length + 1) ++ bs "\n" ++
        spaces (indent.length - 2) ++ bs "|\n" ++
        indent ++ pre ++ mid ++ post ++ bs "\n" ++
        indent' ++ spaces pre.length ++ carets mid.length ++ bs " " ++ message ++ bs "\n" := by
  have hno : ∀ c : UInt8, c < 32 → c ∉ pre ++ mid ++ post := by
    intro c hc hm
    have := (hline c hm).1
    exact absurd hc (UInt8.not_lt.mpr this)
  obtain ⟨h1, text, h2, ws, h3, h4, h5⟩ := C04_line_and_column before (pre ++ mid ++ post) after pre.length hb (hno 10 (by decide))
    (fun h => hno 13 (by decide) (List.mem_of_mem_drop h)) ha (by simp only [List.length_append]; omega)
  have hws : ws = [] := by
    cases hw : ws.getLast? with
    | none => simpa using hw
    | some b =>
      exfalso
      have hl : (pre ++ mid ++ post).getLast? = some b := by rw [h3, List.getLast?_append, hw]; rfl
      have hm : b ∈ ws := List.mem_of_getLast? hw
      have hb := h4 b hm
      have hbl := List.mem_of_getLast? hl
      simp only [List.mem_cons, List.not_mem_nil, or_false] at hb
      rcases hb with rfl | rfl | rfl | rfl | rfl
      · exact htrim hl
      · exact hno _ (by decide) hbl
      · exact hno _ (by decide) hbl
      · exact hno _ (by decide) hbl
      · exact hno _ (by decide) hbl
  subst hws
  simp only [List.append_nil] at h3
  subst h3
  refine ⟨⟨1 + before.count 10, pre ++ mid ++ post, message, pre.length, mid.length, file⟩, ?_, ?_⟩
  · unfold errAt
    simp only [h1, h2, Option.bind_some]
    simp
  · refine ⟨spaces (linePad (1 + before.count 10) - 3), number (1 + before.count 10) ++ bs " | ",
      spaces (linePad (1 + before.count 10) - 2) ++ bs "| ", ?_, ?_⟩
    · have := linePad_eq (1 + before.count 10) (by omega)
      simp only [List.length_append, spaces, List.length_replicate, this, show (bs " | ").length = 3 from rfl,
        show (bs "| ").length = 2 from rfl]
      omega
    · have hl : (number (1 + before.count 10) ++ bs " | ").length - 2 = linePad (1 + before.count 10) - 2 := by
        rw [linePad_eq _ (by omega), List.length_append, show (bs " | ").length = 3 from rfl]
      rw [hl]
      unfold plainText
      simp only [List.append_assoc]
      rfl

example : ∃ d, errAt (bs "ab\ncd efg h\nx") (bs "f.adoc") (bs "no") 6 9 = some d ∧
    plainText d = bs " --> f.adoc:2:4\n  |\n2 | cd efg h\n  |    ^^^ no\n" := by
  refine ⟨_, rfl, ?_⟩; decide

/-- The bytes before the underlined text are counted, not the characters: under `é<x`, the caret for `<` stands one
column to the right. -/
theorem C63_violated_characters : ∃ d, errAt [0xc3, 0xa9, 60, 120] [] [] 2 3 = some d ∧ d.start = 2 := ⟨_, rfl, rfl⟩

/-- From line 100000 on, the carets stand to the left of what they should point at. -/
theorem C63_violated_line_number (n : Nat) (h : 100000 ≤ n) : linePad n < (number n).length + 3 := by
  rw [number_length]
  have h5 := Nat.length_toDigits_le_iff (b := 10) (n := n) (k := 5) (by decide) (by decide)
  simp only [Nat.reducePow] at h5
  unfold linePad
  rw [if_neg (by omega), if_neg (by omega), if_neg (by omega), if_neg (by omega)]
  omega

end Verif.Props

import Verif.Lemmas.Grid
import Verif.Lemmas.TableEnd
/-! C39: the rows of a table have the declared width, its cells keep their order, and parsing ends. -/
namespace Verif.Props
open Verif Tables Columns

/-- a written cell is read with its own copies, spans, alignments and text; without an alignment of its own it takes that
of its column, and likewise for the style, unless it is part of a header row. -/
theorem C39_cell (cfg : Config) (sep : Tok) (hsep : sepOk sep cfg.sep) (w : Written) (hw : w.ok cfg.sep) (rest : List Tok) (s : St) (col : Nat)
    (hrest : rest = [] ∨ ∃ v more, Written.ok cfg.sep v ∧ rest = v.tokens sep ++ more) (hfit : s.counting = true ∨ w.cols ≤ s.numCols % 256) :
    ∃ c s', psvCell cfg col (size (w.tokens sep ++ rest) + 1) s (w.tokens sep ++ rest) = (some (c, w.copies), s', rest) ∧
      c.text = w.value sep ∧ c.colSpan = w.cols ∧ c.rowSpan = w.rows ∧
      c.hAlign = w.h.getD ((cfg.colSpecs[col]?.map (·.hAlign)).getD .left) ∧
      c.vAlign = w.v.getD ((cfg.colSpecs[col]?.map (·.vAlign)).getD .top) ∧
      c.style = (if s.header.known ∧ s.headerRow.isNone then .default else w.style.getD ((cfg.colSpecs[col]?.map (·.style)).getD .default)) := by
  have hr : Starts cfg.sep rest := by
    rcases hrest with rfl | ⟨v, more, hv, rfl⟩
    · exact .inl rfl
    · exact tokens_starts hsep hv more
  obtain ⟨st, h, rp, e1, e2, _⟩ := finishCell_written hsep hw { s with counting := s.counting && !w.multiline sep } col
  rw [psvCell_written hsep hw hr s hfit col _, e1]
  refine ⟨_, _, rfl, rfl, (spec_spans _ _ _ _).2.1, (spec_spans _ _ _ _).2.2, ?_, ?_, ?_⟩
  · simp only [Cell.new, Written.spec]; cases cfg.colSpecs[col]? <;> rfl
  · simp only [Cell.new, Written.spec]; cases cfg.colSpecs[col]? <;> rfl
  · simp only [Cell.new, e2, styleFor, Written.spec]; cases cfg.colSpecs[col]? <;> rfl

/-- Partial: a grid of cells whose rows fill the declared columns, where row spans end within the table and no row is
reached by spans that start in different rows, is read back row by row: each row has its own cells with their copies, in
order, and the parser stops. Missing: tables that are not such grids, where the claim fails (see `C39_violated_…`). -/
theorem C39_rows_partial (cfg : Config) (o : Options) (sep : Tok) (g : Grid) (fuel : Nat) (hfmt : cfg.format = .prefixed) (hsep : sepOk sep cfg.sep)
    (hcols : 1 ≤ cfg.colSpecs.length ∧ cfg.colSpecs.length ≤ 255) (hok : ∀ row ∈ g, ∀ w ∈ row, w.ok cfg.sep)
    (hfill : Filled cfg.colSpecs.length g) (hcont : Contained g) (hal : Aligned g)
    (hdup : o.header = true ∨ o.noheader = true ∨ o.lines ≠ 1 ∨ ∀ row, g.head? = some row → ∀ w ∈ row, w.copies = 1)
    (hfuel : g.length < fuel) :
    ∃ t, parseTable cfg o fuel (gridTokens sep g) = .table t ∧ t.allRows.map (·.map Cell.shape) = g.map (rowShape sep) := by
  have hne : cfg.colSpecs.isEmpty = false := by
    cases h : cfg.colSpecs with
    | nil => rw [h] at hcols; simp at hcols
    | cons a b => rfl
  obtain ⟨s', e1, e2⟩ := psvRows_written hsep hcols g hok hfill hcont hal g.length 0 (start cfg o) fuel (by omega) hfuel
    ⟨rfl, rfl, rfl, fun _ _ => ⟨rfl, rfl⟩, fun r' _ => rfl⟩ (by simp [start, hne])
    (by
      intro hu row hrow
      have : g.head? = some row := by rw [List.head?_eq_getElem?]; exact hrow
      simp only [start] at hu
      split at hu
      · cases hu
      · split at hu
        · cases hu
        · split at hu
          · cases hu
          · rename_i h1 h2 h3
            rcases hdup with h | h | h | h
            · exact absurd h h1
            · exact absurd h h2
            · exact absurd h h3
            · exact h row this)
  refine ⟨finishTable o s', ?_, ?_⟩
  · unfold parseTable firstRow otherRows
    simp only [hfmt, if_true]
    have hc : (start cfg o).counting = false := hne
    simp only [hc, Bool.false_eq_true, if_false]
    rw [List.drop_zero] at e1
    rw [e1]
  · rw [allRows_finish, e2]
    rfl

/-- Partial: the same for tables whose number of columns is taken from the first row, which is one line. Missing, besides
what `C39_rows_partial` leaves out: cells of the first row that span both columns and rows (see `C39_violated_first_row`). -/
theorem C39_implicit_partial (cfg : Config) (o : Options) (sep : Tok) (row : List Written) (g : Grid) (fuel : Nat) (hfmt : cfg.format = .prefixed)
    (hsep : sepOk sep cfg.sep) (hcols : cfg.colSpecs = []) (hok : ∀ r ∈ row :: g, ∀ w ∈ r, w.ok cfg.sep) (hne : row ≠ []) (hn : ownWidth row ≤ 255)
    (hfill : Filled (ownWidth row) (row :: g)) (hcont : Contained (row :: g)) (hal : Aligned (row :: g))
    (hline : ∀ w ∈ row.dropLast, ∀ t ∈ w.value sep ++ w.trail, t.kind ≠ .Newline)
    (hend : g = [] ∨ ∀ w, row.getLast? = some w → ∃ t ∈ w.value sep ++ w.trail, t.kind = .Newline)
    (hspan : ∀ w ∈ row, w.cols = 1 ∨ w.rows = 1)
    (hdup : o.header = true ∨ o.noheader = true ∨ o.lines ≠ 1 ∨ ∀ w ∈ row, w.copies = 1) (hfuel : g.length < fuel) :
    ∃ t, parseTable cfg o fuel (gridTokens sep (row :: g)) = .table t ∧ t.allRows.map (·.map Cell.shape) = (row :: g).map (rowShape sep) := by
  have hrow := hok row (by simp)
  have hg : ∀ r ∈ g, ∀ w ∈ r, w.ok cfg.sep := fun r hr => hok r (by simp [hr])
  have hrest : Starts cfg.sep (gridTokens sep g) := starts_grid hsep hg
  have hml : ∀ w : Written, w.multiline sep = (w.value sep ++ w.trail).any (·.kind = .Newline) := by
    intro w
    unfold Written.multiline Written.kept
    split
    · rename_i ht
      simp only [List.any_append]
      congr 1
      induction w.trail with
      | nil => rfl
      | cons t ts ih =>
        by_cases hk : t.kind = .Whitespace
        · simp [List.dropWhile, hk, ih]
        · simp [List.dropWhile, hk]
    · rfl
  have hcount : (start cfg o).counting = true := by simp [start, hcols]
  have hsz : row.length < size (row.flatMap (Written.tokens sep) ++ gridTokens sep g) + 1 := by
    have : ∀ row : List Written, row.length ≤ size (row.flatMap (Written.tokens sep)) := by
      intro row
      induction row with
      | nil => exact Nat.zero_le _
      | cons w row ih =>
        rw [List.flatMap_cons, size_append, List.length_cons]
        have : 1 ≤ size (w.tokens sep) := by
          unfold Written.tokens
          simp only [size_append, size_cons]; omega
        omega
    rw [size_append]; have := this row; omega
  obtain ⟨cs, s1, e1, e2, e3, e4, e5, e6, e7, e8, e9, e10⟩ := firstCells_written hsep (fun _ => 0) (fun r' => ∃ w ∈ row, r' < 0 + w.rows) hrest row (start cfg o) [] _ (fun _ => 0)
    hrow hne hsz hcount
    (by intro w hw; rw [hml]; simp only [List.any_eq_false, decide_eq_true_eq]; exact hline w hw)
    (by
      intro w hw
      rcases hend with rfl | h
      · exact .inr rfl
      · left; rw [hml]; simp only [List.any_eq_true, decide_eq_true_eq]; exact h w hw)
    hspan (fun _ _ => ⟨rfl, rfl⟩)
    (by
      intro hu
      simp only [start] at hu
      split at hu
      · cases hu
      · split at hu
        · cases hu
        · split at hu
          · cases hu
          · rename_i h1 h2 h3
            rcases hdup with h | h | h | h
            · exact absurd h h1
            · exact absurd h h2
            · exact absurd h h3
            · exact h)
    (by intro r' _; exact ⟨rfl, fun _ p hp => by simp [start] at hp⟩)
    (fun w hw r' _ h => ⟨w, hw, h⟩)
  have hcs : cs ≠ [] := by
    intro hc
    rw [hc] at e2
    cases row with
    | nil => exact hne rfl
    | cons w row =>
      have := (hrow w (by simp)).1.1
      obtain ⟨m, hm⟩ : ∃ m, w.copies = m + 1 := ⟨w.copies - 1, by omega⟩
      simp [rowShape, hm, List.replicate_succ] at e2
  have hwidth := shape_width e2
  rw [List.nil_append] at e1 e3
  have hinv : HInv { s1 with numCols := ownWidth row, rowIdx := s1.rowIdx + 1 } cs := e3
  obtain ⟨s2, p1, p2, p3, p4, p5, p6, p7, p8, p9⟩ := pushRow_out hinv
  have hout0 : Out { s1 with numCols := ownWidth row, rowIdx := s1.rowIdx + 1 } = [] := by
    simp only [Out, e8, e9]; rfl
  have hat : AtRow (ownWidth row) (row :: g) 1 s2 := by
    refine ⟨by rw [p5], by rw [p8]; simp [e6, start], by rw [p9]; simp [e7, start], p3, ?_⟩
    intro r' hr'
    rw [p7]
    have := e10 r' (by simp [start]; omega)
    simp only
    rw [this]
    rw [covUp_succ]
    simp [covUp, start]
  have hpos := ownWidth_pos hrow hne
  have hfirst : firstRow cfg (start cfg o) (gridTokens sep (row :: g)) = some (s2, gridTokens sep g) := by
    unfold firstRow psvFirstRow
    rw [if_pos hcount, if_pos hfmt]
    have : gridTokens sep (row :: g) = row.flatMap (Written.tokens sep) ++ gridTokens sep g := rfl
    rw [this, e1]
    simp only [hwidth]
    rw [dropNewline_starts hrest, finishFirstRow_eq hcs (by simp [e9, start]) (by simp [e8, start])]
    rw [p1]; rfl
  have hrest' : ∃ s3, psvRows cfg fuel s2 (gridTokens sep g) = some (some s3) ∧ (Out s3).map (·.map Cell.shape) = (Out s2).map (·.map Cell.shape) ++ g.map (rowShape sep) := by
    rcases hend with rfl | hend
    · obtain ⟨f, rfl⟩ : ∃ f, fuel = f + 1 := ⟨fuel - 1, by omega⟩
      obtain ⟨s3, q1, q2⟩ := psvRows_end (cfg := cfg) hpos hcont hat f
      exact ⟨s3, q1, by simp [q2]⟩
    · obtain ⟨w, hw⟩ : ∃ w, row.getLast? = some w := ⟨_, List.getLast?_eq_some_getLast hne⟩
      have hc := e5 w hw (by rw [hml]; simp only [List.any_eq_true, decide_eq_true_eq]; exact hend w hw)
      have := psvRows_written hsep ⟨hpos, hn⟩ (row :: g) hok hfill hcont hal g.length 1 s2 fuel (by simp; omega) hfuel hat (by rw [p6]; exact hc) (fun hu => absurd hu p4)
      simpa using this
  obtain ⟨s3, q1, q2⟩ := hrest'
  refine ⟨finishTable o s3, ?_, ?_⟩
  · unfold parseTable otherRows
    rw [hfirst]
    simp only [hfmt, if_true, q1]
  · rw [allRows_finish, q2, p2, hout0, e2]; simp

/-- Partial: with declared columns, the parser comes to an end whatever the tokens are. Missing: tables without columns
(see `C39_violated_endless`) and values of attributes that contain an unusual separator. -/
theorem C39_ends_partial (cfg : Config) (o : Options) (ts : List Tok) (hfmt : cfg.format = .prefixed) (hcols : cfg.colSpecs ≠ []) (ha : attrOk cfg.sep ts) :
    ∃ fuel, parseTable cfg o fuel ts ≠ .unfinished := by
  have hc : (start cfg o).counting = false := by
    cases h : cfg.colSpecs with
    | nil => exact absurd h hcols
    | cons a b => simp [start, h]
  obtain ⟨fuel, hf⟩ := psvRows_ends cfg (start cfg o) ts (List.length_pos_iff.2 hcols) ha
  refine ⟨fuel, ?_⟩
  unfold parseTable firstRow otherRows
  simp only [hc, hfmt, if_true, Bool.false_eq_true, if_false]
  cases h : psvRows cfg fuel (start cfg o) ts with
  | none => rw [h] at hf; cases hf
  | some x => cases x <;> simp

/-! #### examples and violations -/

/-- a table with the separator `|` -/
private def pipes (n : Nat) : Config := { format := .prefixed, sep := '|', colSpecs := List.replicate n ⟨.proportional 1, .left, .top, .default⟩ }
private def bar : Tok := ⟨.Pipe, ['|'], false⟩
private def word (s : String) : Tok := ⟨.Word, s.toList, false⟩
private def nl : Tok := ⟨.Newline, ['\n'], false⟩
private def cell (s : String) : Written := { text := [.plain (word s)], trail := [nl] }
/-- the texts, row by row -/
private def texts : Outcome → List (List String)
  | .table t => t.allRows.map (·.map fun c => String.ofList (c.text.flatMap (·.lexeme)))
  | _ => []

/-- `.2+|a 2*|b`, then `2+m|c\|d`, with three columns: two rows of three columns each -/
private def sample : Grid := [[{ cell "a" with rows := 2 }, { cell "b" with copies := 2 }],
  [{ cols := 2, style := some .monospace, lead := [⟨.Whitespace, [' '], false⟩], text := [.plain (word "c"), .escaped, .plain (word "d")], trail := [nl] }]]

private theorem bar_ok : sepOk bar '|' := ⟨rfl, rfl, by decide, by decide, by decide⟩
private theorem sample_ok : ∀ row ∈ sample, ∀ w ∈ row, w.ok '|' := by
  intro row hr w hw
  simp only [sample, List.mem_cons, List.not_mem_nil, or_false] at hr
  rcases hr with rfl | rfl
  · simp only [List.mem_cons, List.not_mem_nil, or_false] at hw
    rcases hw with rfl | rfl <;> simp [Written.ok, cell, word, nl, Tok.ws]
  · simp only [List.mem_cons, List.not_mem_nil, or_false] at hw
    subst hw
    simp [Written.ok, word, nl, Tok.ws]

example : ∃ t, parseTable (pipes 3) {} 3 (gridTokens bar sample) = .table t ∧ t.allRows.map (·.map Cell.shape) = sample.map (rowShape bar) := by
  refine C39_rows_partial (pipes 3) {} bar sample 3 rfl bar_ok ⟨by decide, by decide⟩ sample_ok ?_ ?_ ?_ (.inr (.inr (.inl (by decide)))) (by decide)
  · intro r h
    have : r = 0 ∨ r = 1 := by simp [sample] at h; omega
    rcases this with rfl | rfl <;> rfl
  · intro r h w hw
    have : r = 0 ∨ r = 1 := by simp [sample] at h; omega
    rcases this with rfl | rfl
    · simp [sample, cell] at hw ⊢; rcases hw with rfl | rfl <;> simp
    · simp [sample] at hw ⊢; subst hw; simp
  · intro r i j hi hj hir hjr ⟨w, hw, h1⟩ ⟨v, hv, h2⟩
    have hi' : i = 0 ∨ i = 1 := by simp [sample] at hi; omega
    have hj' : j = 0 ∨ j = 1 := by simp [sample] at hj; omega
    rcases hi' with rfl | rfl
    · rcases hj' with rfl | rfl
      · rfl
      · simp [sample] at hv; subst hv; simp at h2; omega
    · simp [sample] at hw; subst hw; simp at h1; omega
example : texts (parseTable (pipes 3) {} 3 (gridTokens bar sample)) = [["a", "b", "b"], ["c|d"]] := by decide +kernel
example : texts (parseTable (pipes 0) {} 3 (gridTokens bar [[{ cell "a" with trail := [⟨.Whitespace, [' '], false⟩] }, cell "b"], [cell "c", cell "d"]])) = [["a", "b"], ["c", "d"]] := by
  decide +kernel

/-- a table without content, or with one cell that spans no columns, is never finished -/
theorem C39_violated_endless : ∀ fuel, parseTable (pipes 0) {} fuel [] = .unfinished ∧
    parseTable (pipes 0) {} fuel (numberTok 0 :: plusTok :: (cell "a").tokens bar) = .unfinished := by
  have key : ∀ fuel (s : St), s.numCols = 0 → s.spilled = [] → s.headerRow = none → s.header = .foundNone → psvRows (pipes 0) fuel s [] = none := by
    intro fuel
    induction fuel with
    | zero => intros; rfl
    | succ n ih =>
      intro s h1 h2 h3 h4
      have : psvRow (pipes 0) s [] = (some [], { s with spilled := [], rowIdx := s.rowIdx + 1 }, []) := by
        simp [psvRow, h1, h2]
      rw [psvRows, this]
      have e : pushRow { s with spilled := [], rowIdx := s.rowIdx + 1 } [] = some (addRow { s with spilled := [], rowIdx := s.rowIdx + 1 } []) := by
        simp [pushRow, h4, HeaderRow.known]
      simp only [e]
      exact ih _ h1 rfl h3 (by simp [addRow, h4])
  intro fuel
  constructor
  · unfold parseTable
    have : firstRow (pipes 0) (start (pipes 0) {}) [] = some (start (pipes 0) {}, []) := by decide +kernel
    rw [this]
    have e : otherRows (pipes 0) fuel (start (pipes 0) {}) [] = none := key fuel _ rfl rfl rfl rfl
    simp only [e]
  · unfold parseTable
    have : ∃ s, firstRow (pipes 0) (start (pipes 0) {}) (numberTok 0 :: plusTok :: (cell "a").tokens bar) = some (s, []) ∧
        s.numCols = 0 ∧ s.spilled = [] ∧ s.headerRow = none ∧ s.header = .foundNone := by
      refine ⟨((firstRow (pipes 0) (start (pipes 0) {}) (numberTok 0 :: plusTok :: (cell "a").tokens bar)).getD (start (pipes 0) {}, [])).1, ?_⟩
      decide +kernel
    obtain ⟨s, e, h1, h2, h3, h4⟩ := this
    rw [e]
    have e : otherRows (pipes 0) fuel s [] = none := key fuel s h1 h2 h3 h4
    simp only [e]

/-- cells may reach over the end of a row: in three columns, two cells that span two columns each are one row of four -/
theorem C39_violated_overshoot : ∃ t, parseTable (pipes 3) {} 5 (gridTokens bar [[{ cell "a" with cols := 2 }, { cell "b" with cols := 2 }]]) = .table t ∧
    t.rows.map (·.map (·.colSpan)) = [[2, 2]] := by
  refine ⟨_, rfl, ?_⟩
  decide +kernel

/-- copies that do not fit in a row make the next one too long: `4*|a` and three more cells, in three columns -/
theorem C39_violated_copies : texts (parseTable (pipes 3) {} 5 (gridTokens bar [[{ cell "a" with copies := 4 }], [cell "b", cell "c", cell "d"]])) =
    [["a", "a", "a"], ["a", "b", "c", "d"]] := by decide +kernel

/-- where spans from different rows meet, a row gets one cell too many: rows `|a |b .3+|c` and `.2+|d .2+|e` fill three rows
of three columns, but `f`, which starts the next row, is put in the third -/
theorem C39_violated_collision : texts (parseTable (pipes 3) {} 5 (gridTokens bar [[cell "a", cell "b", { cell "c" with rows := 3 }],
    [{ cell "d" with rows := 2 }, { cell "e" with rows := 2 }], [], [cell "f", cell "g", cell "h"]])) = [["a", "b", "c"], ["d", "e"], ["f"], ["g", "h"]] := by
  decide +kernel

/-- without declared columns, a cell of the first row that spans columns and rows is put in the wrong place: `2+.2+|a .2+|b`
covers the second row, but the parser puts `c` there -/
theorem C39_violated_first_row : texts (parseTable (pipes 0) {} 5 (gridTokens bar [[{ cell "a" with cols := 2, rows := 2, trail := [⟨.Whitespace, [' '], false⟩] }, { cell "b" with rows := 2 }],
    [], [cell "c", cell "d", cell "e"]])) = [["a", "b"], ["c"], ["d", "e"]] := by decide +kernel

/-- a last row that is not complete is kept -/
theorem C39_violated_incomplete : texts (parseTable (pipes 2) {} 5 (gridTokens bar [[cell "a", cell "b"], [cell "c"]])) = [["a", "b"], ["c"]] := by decide +kernel

/-- if a blank line after the first line makes it a header, a copied literal cell in it stops the program -/
theorem C39_violated_panic : parseTable (pipes 2) { lines := 1 } 5 (gridTokens bar [[{ cell "a" with copies := 2, style := some .literal, trail := [nl, nl] }], [cell "b", cell "c"]]) = .panic := by
  decide +kernel

end Verif.Props

import Verif.Lemmas.Csv
/-! C41: a table of comma-separated values is read back as it was written. -/
namespace Verif.Props
open Verif Tables Columns

/-- Partial: lines of cells, each with as many cells as there are declared columns, are read back row by row: every cell has
the text it was written with, in quotes or not, with doubled quotes made single and with separators and line ends in quotes
kept. Missing: text with white space around it or without any token that is not in quotes, and lines of other lengths
(see `C41_violated_…`). -/
theorem C41_declared_partial (cfg : Config) (o : Options) (sep newline : Tok) (final : List Tok) (ls : List (List CsvCell)) (fuel : Nat)
    (hcsv : cfg.format = .csv) (hsep : separates cfg sep) (hnl : newline.kind = .Newline) (hfin : final = [] ∨ final = [newline])
    (hcols : 1 ≤ cfg.colSpecs.length) (hl : ∀ l ∈ ls, l.length = cfg.colSpecs.length ∧ ∀ c ∈ l, c.ok cfg) (hfuel : ls.length < fuel) :
    ∃ t, parseTable cfg o fuel (csvLines sep newline final ls) = .table t ∧ t.allRows.map (·.map (·.text)) = ls.map (·.map (·.text)) := by
  have hc : (start cfg o).counting = false := by
    cases h : cfg.colSpecs with
    | nil => rw [h] at hcols; simp at hcols
    | cons a b => simp [start, h]
  obtain ⟨s', e1, e2⟩ := dsvRows_csv hcsv hsep hnl hfin hcols ls fuel (start cfg o) hl hfuel rfl
    (by simp only [start]; (repeat' split) <;> simp)
  refine ⟨finishTable o s', ?_, ?_⟩
  · unfold parseTable firstRow otherRows
    rw [if_neg (by simp [hc])]
    simp only
    rw [if_neg (by simp [hcsv]), e1]
  · rw [allRows_finish, e2]
    rfl

/-- Partial: the same if the number of columns is that of the first line. Missing, besides what `C41_declared_partial` leaves
out: a line end inside a cell of the first line, other than its last (see `C41_violated_first_line`). -/
theorem C41_counted_partial (cfg : Config) (o : Options) (sep newline : Tok) (final : List Tok) (l : List CsvCell) (ls : List (List CsvCell)) (fuel : Nat)
    (hcsv : cfg.format = .csv) (hsep : separates cfg sep) (hnl : newline.kind = .Newline) (hfin : final = [] ∨ final = [newline])
    (hcols : cfg.colSpecs = []) (hne : l ≠ []) (hl : ∀ x ∈ l :: ls, x.length = l.length ∧ ∀ c ∈ x, c.ok cfg)
    (hline : ∀ c ∈ l.dropLast, ∀ t ∈ c.text, t.kind ≠ .Newline) (hfuel : ls.length < fuel) :
    ∃ t, parseTable cfg o fuel (csvLines sep newline final (l :: ls)) = .table t ∧ t.allRows.map (·.map (·.text)) = (l :: ls).map (·.map (·.text)) := by
  have hc : (start cfg o).counting = true := by simp [start, hcols]
  have hn : 1 ≤ l.length := List.length_pos_iff.2 hne
  have hls : ∀ x ∈ ls, x.length = l.length ∧ ∀ c ∈ x, c.ok cfg := fun x hx => hl x (by simp [hx])
  have hh : (start cfg o).header ≠ .foundImplicit := by
    simp only [start]; (repeat' split) <;> simp
  have hnext : ∀ t q, csvLines sep newline final ls = t :: q → t.kind ≠ .Newline :=
    csvLines_head (cfg := cfg) fun x hx => ⟨by intro e; have := (hls x hx).1; rw [e] at this; simp at this; omega, (hls x hx).2⟩
  have hend : lineTail sep newline final ls = [] ∨ (lineTail sep newline final ls).head?.any (·.kind = .Newline) = true := by
    unfold lineTail
    split
    · rcases hfin with rfl | rfl
      · exact .inl rfl
      · right; simp [hnl]
    · right; simp [hnl]
  obtain ⟨cs, s1, e1, e2, e3⟩ := dsvFirstCells_csv hcsv hsep (follows_tail hnl hfin ls) hend hnext l
    (size (csvLine sep l ++ lineTail sep newline final ls) + 1) (start cfg o) [] (hl l (by simp)).2 hne
    (by have := length_csvLine sep (hl l (by simp)).2; rw [size_append]; omega) hc
    (by intro c hc; simp only [lineEnds, List.any_eq_false, decide_eq_true_eq]; exact hline c hc) hh
  rw [List.nil_append] at e1
  have hcs : cs ≠ [] := by
    intro e; rw [e] at e2
    cases l with
    | nil => exact hne rfl
    | cons a b => simp at e2
  have hlen : cs.length = l.length := by have := congrArg List.length e2; simpa using this
  obtain ⟨s2, p1, p2, p3, p4⟩ := pushRow_csv (s := { s1 with numCols := cs.length, rowIdx := s1.rowIdx + 1 }) (row := cs) (by simp only [e3.2.1]; exact hh)
  obtain ⟨s3, q1, q2⟩ := dsvRows_csv hcsv hsep hnl hfin hn ls fuel s2 hls hfuel (by rw [p4]; exact hlen) p3
  refine ⟨finishTable o s3, ?_, ?_⟩
  · unfold parseTable firstRow otherRows dsvFirstRow
    rw [if_pos hc, if_neg (by simp [hcsv]), csvLines_cons, e1]
    simp only
    rw [finishFirstRow_eq hcs (by simp [e3.2.2.1, e3.2.2.2, start]) (by simp [e3.2.2.1, e3.2.2.2, start])]
    rw [p1]
    simp only [Option.map_some]
    rw [if_neg (by simp [hcsv]), q1]
  · rw [allRows_finish, q2, p2]
    have : Out { s1 with numCols := cs.length, rowIdx := s1.rowIdx + 1 } = [] := by simp [Out, e3.2.2.1, e3.2.2.2, start]
    rw [this]
    simp [e2]

/-! #### examples and violations -/

private def csv (n : Nat) : Config := { format := .csv, sep := ',', colSpecs := List.replicate n ⟨.proportional 1, .left, .top, .default⟩ }
private def comma : Tok := ⟨.Comma, [','], false⟩
private def nl : Tok := ⟨.Newline, ['\n'], false⟩
private def word (s : String) : Tok := ⟨.Word, s.toList, false⟩
private def space : Tok := ⟨.Whitespace, [' '], false⟩
private def texts : Outcome → List (List String)
  | .table t => t.allRows.map (·.map fun c => String.ofList (c.text.flatMap (·.lexeme)))
  | _ => []

/-- `a,"b, ""c""\nd"` and `"",e` -/
private def sample : List (List CsvCell) := [[⟨false, [word "a"]⟩, ⟨true, [word "b", comma, space, quoteTok, word "c", quoteTok, nl, word "d"]⟩], [⟨true, []⟩, ⟨false, [word "e"]⟩]]
private theorem sample_ok (cfg : Config) (h : cfg.sepKind = some .Comma) : ∀ l ∈ sample, l.length = 2 ∧ ∀ c ∈ l, c.ok cfg := by
  intro l hl
  simp only [sample, List.mem_cons, List.not_mem_nil, or_false] at hl
  rcases hl with rfl | rfl
  · refine ⟨rfl, fun c hc => ?_⟩
    simp only [List.mem_cons, List.not_mem_nil, or_false] at hc
    rcases hc with rfl | rfl <;> simp [CsvCell.ok, h, word, Tok.ws]
  · refine ⟨rfl, fun c hc => ?_⟩
    simp only [List.mem_cons, List.not_mem_nil, or_false] at hc
    rcases hc with rfl | rfl <;> simp [CsvCell.ok, h, word, Tok.ws]

example : ∃ t, parseTable (csv 2) {} 3 (csvLines comma nl [nl] sample) = .table t ∧ t.allRows.map (·.map (·.text)) = sample.map (·.map (·.text)) :=
  C41_declared_partial (csv 2) {} comma nl [nl] sample 3 rfl ⟨by decide, by decide, rfl⟩ rfl (.inr rfl) (by decide) (sample_ok (csv 2) rfl) (by decide)
example : ∃ t, parseTable (csv 0) {} 2 (csvLines comma nl [] sample) = .table t ∧ t.allRows.map (·.map (·.text)) = sample.map (·.map (·.text)) :=
  C41_counted_partial (csv 0) {} comma nl [] _ _ 2 rfl ⟨by decide, by decide, rfl⟩ rfl (.inl rfl) rfl (by simp) (sample_ok (csv 0) rfl)
    (by intro c hc; simp at hc; subst hc; simp [word]) (by decide)
example : texts (parseTable (csv 2) {} 3 (csvLines comma nl [nl] sample)) = [["a", "b, \"c\"\nd"], ["", "e"]] := by decide +kernel

/-- a line end in quotes ends the first line if the number of columns is not declared: `"a\nb",c` and `d,e` are four rows -/
theorem C41_violated_first_line : texts (parseTable (csv 0) {} 9 (csvLines comma nl [] [[⟨true, [word "a", nl, word "b"]⟩, ⟨false, [word "c"]⟩], [⟨false, [word "d"]⟩, ⟨false, [word "e"]⟩]])) =
    [["a\nb"], ["c"], ["d"], ["e"]] := by decide +kernel

/-- a blank line at the end is a row with an empty cell -/
theorem C41_violated_blank_line : texts (parseTable (csv 2) {} 9 (csvLines comma nl [] [[⟨false, [word "a"]⟩, ⟨false, [word "b"]⟩]] ++ [nl, nl])) = [["a", "b"], [""]] := by
  decide +kernel

/-- A double quote inside of a cell that does not start with one is lost, and does not protect a separator. -/
theorem C41_violated_stray_quote : texts (parseTable (csv 2) {} 9 (csvLines comma nl [] [[⟨false, [word "a", quoteTok, word "b"]⟩, ⟨false, [word "c"]⟩]])) = [["ab", "c"]] := by
  decide +kernel

/-- a row that is too short takes cells from the next line -/
theorem C41_violated_short : texts (parseTable (csv 2) {} 9 (csvLines comma nl [] [[⟨false, [word "a"]⟩], [⟨false, [word "b"]⟩, ⟨false, [word "c"]⟩]])) = [["a", "b"], ["c"]] := by
  decide +kernel

/-- white space around the text in quotes is lost -/
theorem C41_violated_space : texts (parseTable (csv 2) {} 9 (csvLines comma nl [] [[⟨true, [space, word "a", space]⟩, ⟨false, [word "b"]⟩]])) = [["a", "b"]] := by
  decide +kernel

private def tsv : Config := { csv 3 with sep := '\t' }
private def tab : Tok := ⟨.Whitespace, ['\t'], false⟩

/-- with tabs between cells, an empty cell at the start of a line is lost, and a tab after a space does not separate: the
lexer makes one token of them -/
theorem C41_violated_tab : separates tsv tab ∧
    texts (parseTable tsv {} 9 [word "a", tab, word "b", ⟨.Whitespace, ['\t', '\t'], false⟩, word "c"]) = [["a", "b", ""], ["c"]] ∧
    texts (parseTable tsv {} 9 [tab, word "b", tab, word "c"]) = [["b", "c"]] ∧
    texts (parseTable tsv {} 9 [word "a", ⟨.Whitespace, [' ', '\t'], false⟩, word "b"]) = [["a \tb"]] := by
  refine ⟨⟨by decide, by decide, rfl⟩, ?_, ?_, ?_⟩ <;> decide +kernel

end Verif.Props

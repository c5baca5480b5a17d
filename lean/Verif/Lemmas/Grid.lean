import Verif.Lemmas.Tables
/-! Lemmas about the rows of tables: a written grid is read back. -/
namespace Verif.Tables
open Verif Columns

/-! #### the cells that a cell covers -/

/-- how many covered positions a row has -/
def cnt (ps : List (Nat × Nat)) (r : Nat) : Nat := (ps.filter fun p => p.1 = r).length

theorem cnt_cons (p : Nat × Nat) (ps : List (Nat × Nat)) (r : Nat) : cnt (p :: ps) r = (if p.1 = r then 1 else 0) + cnt ps r := by
  unfold cnt
  rw [List.filter_cons]
  split <;> simp_all <;> omega

theorem cnt_append (a b : List (Nat × Nat)) (r : Nat) : cnt (a ++ b) r = cnt a r + cnt b r := by simp [cnt]

theorem mem_fold (L : List (Nat × Nat)) : ∀ ps p, p ∈ L.foldl insertPhantom ps ↔ p ∈ ps ∨ p ∈ L := by
  induction L with
  | nil => simp
  | cons q L ih =>
    intro ps p
    rw [List.foldl_cons, ih]
    unfold insertPhantom
    split
    · rename_i hq
      simp only [List.mem_cons]
      constructor
      · rintro (h | h)
        · exact .inl h
        · exact .inr (.inr h)
      · rintro (h | rfl | h)
        · exact .inl h
        · exact .inl hq
        · exact .inr h
    · simp [or_assoc]

theorem cnt_fold (r : Nat) (L : List (Nat × Nat)) : ∀ ps, L.Nodup → (∀ p ∈ L, p.1 = r → p ∉ ps) → cnt (L.foldl insertPhantom ps) r = cnt ps r + cnt L r := by
  induction L with
  | nil => intro ps _ _; rfl
  | cons q L ih =>
    intro ps hn hd
    rw [List.foldl_cons]
    have hn' := List.nodup_cons.1 hn
    rw [ih _ hn'.2]
    · rw [cnt_cons]
      unfold insertPhantom
      split
      · rename_i hq
        have : q.1 ≠ r := fun h => hd q (by simp) h hq
        simp [this]
      · rw [cnt_append, cnt_cons]
        have : cnt [] r = 0 := rfl
        omega
    · intro p hp hr
      have h1 := hd p (by simp [hp]) hr
      unfold insertPhantom
      split
      · exact h1
      · simp only [List.mem_append, List.mem_singleton, not_or]
        exact ⟨h1, fun h => hn'.1 (h ▸ hp)⟩

theorem mem_covered {r e : Nat} {c : Cell} {p : Nat × Nat} : p ∈ covered r e c ↔
    ∃ i j, i < c.rowSpan ∧ j < c.colSpan ∧ ¬ (i = 0 ∧ j = 0) ∧ p = (r + i, e + j) := by
  simp only [covered, List.mem_flatMap, List.mem_range, List.mem_filterMap]
  constructor
  · rintro ⟨i, hi, j, hj, h⟩
    split at h
    · cases h
    · rename_i hz; cases h; exact ⟨i, j, hi, hj, hz, rfl⟩
  · rintro ⟨i, j, hi, hj, hz, rfl⟩
    exact ⟨i, hi, j, hj, by rw [if_neg hz]⟩

theorem nodup_flatMap_range {α} (f : Nat → List α) (n : Nat) (h1 : ∀ i, (f i).Nodup) (h2 : ∀ i j a, a ∈ f i → a ∈ f j → i = j) :
    ((List.range n).flatMap f).Nodup := by
  induction n with
  | zero => simp
  | succ n ih =>
    rw [List.range_succ, List.flatMap_append, List.nodup_append]
    refine ⟨ih, by simpa using h1 n, ?_⟩
    intro a ha b hb e
    subst e
    simp only [List.mem_flatMap, List.mem_range, List.flatMap_cons, List.flatMap_nil, List.append_nil] at ha hb
    obtain ⟨i, hi, ha⟩ := ha
    have := h2 _ _ _ ha hb
    omega

theorem nodup_filterMap_range {α} (f : Nat → Option α) (n : Nat) (h : ∀ i j a, f i = some a → f j = some a → i = j) :
    ((List.range n).filterMap f).Nodup := by
  induction n with
  | zero => simp
  | succ n ih =>
    rw [List.range_succ, List.filterMap_append, List.nodup_append]
    refine ⟨ih, ?_, ?_⟩
    · cases hf : f n <;> simp [hf]
    · intro a ha b hb e
      subst e
      simp only [List.mem_filterMap, List.mem_range, List.mem_singleton] at ha hb
      obtain ⟨i, hi, ha⟩ := ha
      obtain ⟨j, rfl, hb⟩ := hb
      have := h _ _ _ ha hb
      omega

theorem covered_nodup (r e : Nat) (c : Cell) : (covered r e c).Nodup := by
  refine nodup_flatMap_range _ _ (fun i => nodup_filterMap_range _ _ ?_) ?_
  · intro a b x ha hb
    split at ha
    · cases ha
    · split at hb
      · cases hb
      · cases ha; simp at hb; omega
  · intro i j a ha hb
    simp only [List.mem_filterMap, List.mem_range] at ha hb
    obtain ⟨x, _, ha⟩ := ha
    obtain ⟨y, _, hb⟩ := hb
    split at ha
    · cases ha
    · split at hb
      · cases hb
      · cases ha; simp at hb; omega

theorem cnt_flatMap_range (f : Nat → List (Nat × Nat)) (n r i : Nat) (h : ∀ j, j ≠ i → cnt (f j) r = 0) :
    cnt ((List.range n).flatMap f) r = if i < n then cnt (f i) r else 0 := by
  induction n with
  | zero => rfl
  | succ n ih =>
    rw [List.range_succ, List.flatMap_append, cnt_append, ih]
    simp only [List.flatMap_cons, List.flatMap_nil, List.append_nil]
    by_cases hn : n = i
    · subst hn; simp
    · rw [h n hn]
      split <;> split <;> omega

theorem cnt_covered (r e r' : Nat) (c : Cell) (h : r < r') : cnt (covered r e c) r' = if r' < r + c.rowSpan then c.colSpan else 0 := by
  unfold covered
  rw [cnt_flatMap_range _ _ _ (r' - r)]
  · have e1 : ∀ k, cnt ((List.range k).filterMap fun k => if r' - r = 0 ∧ k = 0 then none else some (r + (r' - r), e + k)) r' = k := by
      intro k
      induction k with
      | zero => rfl
      | succ k ih =>
        rw [List.range_succ, List.filterMap_append, cnt_append, ih]
        have : ¬ (r' - r = 0 ∧ k = 0) := by omega
        simp only [List.filterMap_cons, this, if_false, List.filterMap_nil, cnt_cons]
        have : cnt [] r' = 0 := rfl
        rw [if_pos (by omega)]; omega
    rw [e1]
    split <;> split <;> omega
  · intro j hj
    unfold cnt
    rw [List.length_eq_zero_iff, List.filter_eq_nil_iff]
    intro p hp
    simp only [List.mem_filterMap, List.mem_range] at hp
    obtain ⟨k, _, hp⟩ := hp
    split at hp
    · cases hp
    · cases hp; simp; omega

/-- what the covered positions in the rows below row `r` look like, while row `r` is being read up to column `e`:
`base` of them were there, `own` are due to the row, and `reaches` says which rows its cells reach -/
def InRow (ps : List (Nat × Nat)) (r e : Nat) (base own : Nat → Nat) (reaches : Nat → Prop) : Prop :=
  ∀ r', r < r' → cnt ps r' = base r' + own r' ∧ (reaches r' → ∀ p ∈ ps, p.1 = r' → p.2 < e)

theorem InRow.add {ps : List (Nat × Nat)} {r e : Nat} {base own : Nat → Nat} {reaches : Nat → Prop} (h : InRow ps r e base own reaches) (c : Cell)
    (hr : ∀ r', r < r' → r' < r + c.rowSpan → reaches r') :
    InRow ((covered r e c).foldl insertPhantom ps) r (e + c.colSpan) base (fun r' => own r' + if r' < r + c.rowSpan then c.colSpan else 0) reaches := by
  intro r' hlt
  obtain ⟨h1, h2⟩ := h r' hlt
  refine ⟨?_, ?_⟩
  · rw [cnt_fold _ _ _ (covered_nodup r e c), cnt_covered r e r' c hlt, h1]
    · simp only; omega
    · intro p hp hpr hm
      obtain ⟨i, j, hi, hj, _, rfl⟩ := mem_covered.1 hp
      simp only at hpr
      have := h2 (hr r' hlt (by omega)) _ hm hpr
      simp only at this
      omega
  · intro hrr p hp hpr
    rcases (mem_fold _ _ _).1 hp with hp | hp
    · have := h2 hrr p hp hpr; omega
    · obtain ⟨i, j, hi, hj, _, rfl⟩ := mem_covered.1 hp
      simp only; omega

/-! #### the header row -/

/-- the tokens of the cells that are parsed again if the row turns out to be a header -/
def lits (cells : List Cell) : List (List Tok) := (cells.filter fun c => c.style = .asciidoc || c.style = .literal).map (·.text)

theorem lits_append (a b : List Cell) : lits (a ++ b) = lits a ++ lits b := by simp [lits]

theorem reparse_lits (cells : List Cell) : ∀ more, ∃ cells', reparseCells (lits cells ++ more) cells = some (cells', more) ∧ cells'.map Cell.shape = cells.map Cell.shape := by
  induction cells with
  | nil => intro more; exact ⟨[], rfl, rfl⟩
  | cons c cs ih =>
    intro more
    obtain ⟨cs', h1, h2⟩ := ih more
    by_cases h : c.style = .asciidoc ∨ c.style = .literal
    · refine ⟨{ c with style := .default } :: cs', ?_, ?_⟩
      · have : lits (c :: cs) = c.text :: lits cs := by
          simp only [lits, List.filter_cons]
          rw [if_pos (by simpa using h)]; rfl
        rw [this, List.cons_append, reparseCells, if_pos h]
        simp only [h1, Option.map_some]
      · simp [h2, Cell.shape]
    · refine ⟨{ c with style := .default } :: cs', ?_, ?_⟩
      · have : lits (c :: cs) = lits cs := by
          simp only [lits, List.filter_cons]
          rw [if_neg (by simpa using h)]
        rw [this, reparseCells.eq_def]
        simp only [h, if_false, h1, Option.map_some]
      · simp [h2, Cell.shape]

/-- while it is open whether the row is a header, exactly its cells are kept to be parsed again -/
def HInv (s : St) (cells : List Cell) : Prop :=
  s.headerRow = none → (s.header = .unknown ∨ s.header = .foundImplicit) → s.rows = [] ∧ s.reparse = lits cells

def Out (s : St) : List (List Cell) := s.headerRow.toList ++ s.rows

theorem pushRow_out {s : St} {row : List Cell} (h : HInv s row) :
    ∃ s', pushRow s row = some s' ∧ (Out s').map (·.map Cell.shape) = (Out s).map (·.map Cell.shape) ++ [row.map Cell.shape] ∧
      HInv s' [] ∧ s'.header ≠ .unknown ∧
      s'.numCols = s.numCols ∧ s'.counting = s.counting ∧ s'.phantoms = s.phantoms ∧ s'.rowIdx = s.rowIdx ∧ s'.spilled = s.spilled := by
  unfold pushRow
  split
  · rename_i hc
    obtain ⟨h1, h2, h3⟩ := hc
    have h2' : s.headerRow = none := by simpa using h2
    have h1' : s.rows = [] := by simpa using h1
    unfold setHeader
    split
    · rename_i hi
      obtain ⟨row', e1, e2⟩ := reparse_lits row []
      rw [List.append_nil] at e1
      rw [(h h2' (.inr hi)).2, e1]
      refine ⟨_, rfl, ?_, ?_, ?_, rfl, rfl, rfl, rfl, rfl⟩
      · simp [Out, h2', h1', e2]
      · intro hn; cases hn
      · simp [hi]
    · refine ⟨_, rfl, ?_, ?_, ?_, rfl, rfl, rfl, rfl, rfl⟩
      · simp [Out, h2', h1']
      · intro hn; cases hn
      · intro hu; simp only at hu; simp [HeaderRow.known, hu] at h3
  · rename_i hc
    refine ⟨_, rfl, ?_, ?_, ?_, rfl, rfl, rfl, rfl, rfl⟩
    · simp [Out, addRow]
    · intro hn hh
      simp only [addRow] at hn hh
      split at hh
      · simp at hh
      · rename_i hu
        rcases hh with hh | hh
        · exact absurd hh hu
        · have := (h hn (.inr hh)).1
          exact absurd ⟨by simp [this], by simp [hn], by simp [HeaderRow.known, hh]⟩ hc
    · simp only [addRow]
      split <;> simp_all

theorem finishCell_written {cfg : Config} {sep : Tok} (hsep : sepOk sep cfg.sep) {w : Written} (hw : w.ok cfg.sep) (s : St) (col : Nat) :
    ∃ st h rp, finishCell cfg s w.spec (w.value sep ++ w.kept) col =
      ((.new (w.value sep) st w.spec cfg.colSpecs[col]?, w.copies), { s with header := h, reparse := rp }) ∧
      st = styleFor cfg s w.spec col ∧ h = headerAfter cfg s (w.value sep ++ w.kept) ∧
      (s.header ≠ .unknown → h = s.header ∧ (s.headerRow = none → s.header = .foundImplicit → st = .default ∧ rp = s.reparse)) ∧
      (s.header = .unknown → h = .unknown ∨ h = .foundImplicit → rp = s.reparse ++ lits [.new (w.value sep) st w.spec cfg.colSpecs[col]?]) := by
  have e1 : trimEnd (w.value sep ++ w.kept) = w.value sep := trimEnd_ws _ _ (fun t ht => (kept_ws hw t ht).1) (value_last hsep hw)
  have e2 : w.spec.duplication.getD 1 = w.copies := by
    unfold Written.spec; simp only; split <;> simp_all
  refine ⟨_, _, _, by unfold finishCell; simp only [e1, e2]; rfl, rfl, rfl, ?_, ?_⟩
  · intro hu
    refine ⟨by simp [headerAfter, hu], ?_⟩
    intro hn hi
    have : styleFor cfg s w.spec col = .default := by simp [styleFor, hn, hi, HeaderRow.known]
    exact ⟨this, by simp [this]⟩
  · intro hu hh
    by_cases hp : cfg.format = .prefixed
    · by_cases hb : endsInBlankLine (trimmed (w.value sep ++ w.kept)) = true
      · simp only [hu, hp, hb, and_true, or_true]
        by_cases hl : styleFor cfg s w.spec col = .asciidoc ∨ styleFor cfg s w.spec col = .literal
        · rw [if_pos hl]; simp [lits, Cell.new, hl]
        · rw [if_neg hl]; simp [lits, Cell.new, hl]
      · have : headerAfter cfg s (w.value sep ++ w.kept) = .unknown := by
          rcases hh with hh | hh
          · exact hh
          · simp only [headerAfter, hu, hp, hb, and_self, if_true, Bool.false_eq_true, if_false] at hh
            split at hh <;> cases hh
        simp only [this, true_or, and_true]
        by_cases hl : styleFor cfg s w.spec col = .asciidoc ∨ styleFor cfg s w.spec col = .literal
        · rw [if_pos hl]; simp [lits, Cell.new, hl]
        · rw [if_neg hl]; simp [lits, Cell.new, hl]
    · have : headerAfter cfg s (w.value sep ++ w.kept) = .unknown := by simp [headerAfter, hp, hu]
      simp only [this, true_or, and_true]
      by_cases hl : styleFor cfg s w.spec col = .asciidoc ∨ styleFor cfg s w.spec col = .literal
      · rw [if_pos hl]; simp [lits, Cell.new, hl]
      · rw [if_neg hl]; simp [lits, Cell.new, hl]

theorem spec_spans (w : Written) (t : List Tok) (st : Style) (col : Option ColSpec) :
    (Cell.new t st w.spec col).shape = (t, w.cols, w.rows) ∧ (Cell.new t st w.spec col).colSpan = w.cols ∧ (Cell.new t st w.spec col).rowSpan = w.rows := by
  have h1 : w.spec.colSpan.getD 1 = w.cols := by unfold Written.spec; simp only; split <;> simp_all
  have h2 : w.spec.rowSpan.getD 1 = w.rows := by unfold Written.spec; simp only; split <;> simp_all
  simp [Cell.new, Cell.shape, h1, h2]

/-! #### one row -/

theorem pushCopies_written (cell : Cell) (hc : 1 ≤ cell.colSpan) (base : Nat → Nat) (reaches : Nat → Prop) : ∀ (k : Nat) (s : St) (cells : List Cell) (eff : Nat) (own : Nat → Nat),
    eff + (k + 1) * cell.colSpan ≤ s.numCols → InRow s.phantoms s.rowIdx eff base own reaches →
    (∀ r', s.rowIdx < r' → r' < s.rowIdx + cell.rowSpan → reaches r') →
    ∃ ps, pushCopies cell k s cells eff = ({ s with phantoms := ps }, cells ++ List.replicate k cell, eff + k * cell.colSpan) ∧
      InRow ps s.rowIdx (eff + k * cell.colSpan) base (fun r' => own r' + k * if r' < s.rowIdx + cell.rowSpan then cell.colSpan else 0) reaches := by
  intro k
  induction k with
  | zero =>
    intro s cells eff own _ h _
    refine ⟨s.phantoms, by simp [pushCopies], ?_⟩
    simpa using h
  | succ k ih =>
    intro s cells eff own hfit h hr
    have h' := h.add cell hr
    have e : (k + 1 + 1) * cell.colSpan = (k + 1) * cell.colSpan + cell.colSpan := by rw [Nat.add_mul (k + 1) 1]; simp
    have e0 : (k + 1) * cell.colSpan = k * cell.colSpan + cell.colSpan := by rw [Nat.add_mul k 1]; simp
    rw [e] at hfit
    obtain ⟨ps, e1, e2⟩ := ih (addPhantoms s cell eff) (cells ++ [cell]) (eff + cell.colSpan) _ (by simp only [addPhantoms]; omega) h' hr
    refine ⟨ps, ?_, ?_⟩
    · rw [pushCopies, if_pos (by simp only [addPhantoms]; omega), e1]
      simp only [addPhantoms, List.append_assoc, List.replicate_succ, List.cons_append, List.nil_append]
      rw [e0, Nat.add_assoc, Nat.add_comm cell.colSpan]
    · have e3 : eff + (k + 1) * cell.colSpan = eff + cell.colSpan + k * cell.colSpan := by omega
      rw [e3]
      intro r' hlt
      obtain ⟨f1, f2⟩ := e2 r' hlt
      refine ⟨?_, f2⟩
      have f1' : cnt ps r' = base r' + (own r' + (if r' < s.rowIdx + cell.rowSpan then cell.colSpan else 0) +
        k * if r' < s.rowIdx + cell.rowSpan then cell.colSpan else 0) := f1
      rw [f1']
      simp only [Nat.add_mul k 1, Nat.one_mul]
      split <;> omega

theorem ownWidth_cons (w : Written) (row : List Written) : ownWidth (w :: row) = w.copies * w.cols + ownWidth row := by simp [ownWidth]
theorem reach_cons (i r : Nat) (w : Written) (row : List Written) : reach i r (w :: row) = (if r < i + w.rows then w.copies * w.cols else 0) + reach i r row := by simp [reach]

theorem ownWidth_pos {c : Char} {row : List Written} (h : ∀ w ∈ row, w.ok c) (hne : row ≠ []) : 1 ≤ ownWidth row := by
  cases row with
  | nil => exact absurd rfl hne
  | cons w row =>
    have := h w (by simp)
    rw [ownWidth_cons]
    have : 1 * 1 ≤ w.copies * w.cols := Nat.mul_le_mul this.1.1 this.2.1.1
    omega

theorem starts_row {c : Char} {sep : Tok} (hsep : sepOk sep c) {row : List Written} (h : ∀ w ∈ row, w.ok c) {rest : List Tok} (hr : Starts c rest) :
    Starts c (row.flatMap (Written.tokens sep) ++ rest) := by
  cases row with
  | nil => exact hr
  | cons w row =>
    rw [List.flatMap_cons, List.append_assoc]
    exact tokens_starts hsep (h w (by simp)) _

theorem starts_grid {c : Char} {sep : Tok} (hsep : sepOk sep c) {g : Grid} (h : ∀ row ∈ g, ∀ w ∈ row, w.ok c) : Starts c (gridTokens sep g) := by
  induction g with
  | nil => exact .inl rfl
  | cons row g ih =>
    simp only [gridTokens, List.flatMap_cons]
    exact starts_row hsep (h row (by simp)) (ih fun r hr => h r (by simp [hr]))

theorem lits_replicate_default (n : Nat) (c : Cell) (h : c.style = .default) : lits (List.replicate n c) = [] := by
  simp [lits, h]

/-- what a row leaves as it is -/
def Kept (s s' : St) : Prop :=
  s'.numCols = s.numCols ∧ s'.counting = s.counting ∧ s'.rowIdx = s.rowIdx ∧ s'.spilled = s.spilled ∧ s'.headerRow = s.headerRow ∧ s'.rows = s.rows

theorem HInv.step {cfg : Config} {sep : Tok} {w : Written} {s : St} {cells : List Cell} {col : Nat} {st : Style} {h : HeaderRow} {rp : List (List Tok)}
    (hi : HInv s cells) (hd : s.header = .unknown → w.copies = 1)
    (h3 : s.header ≠ .unknown → h = s.header ∧ (s.headerRow = none → s.header = .foundImplicit → st = .default ∧ rp = s.reparse))
    (h4 : s.header = .unknown → h = .unknown ∨ h = .foundImplicit → rp = s.reparse ++ lits [.new (w.value sep) st w.spec cfg.colSpecs[col]?])
    (s' : St) (e1 : s'.headerRow = s.headerRow) (e2 : s'.header = h) (e3 : s'.rows = s.rows) (e4 : s'.reparse = rp) :
    HInv s' (cells ++ List.replicate w.copies (.new (w.value sep) st w.spec cfg.colSpecs[col]?)) := by
  intro hn hh
  rw [e1] at hn
  rw [e2] at hh
  rw [e3, e4, lits_append]
  by_cases hu : s.header = .unknown
  · have := hi hn (.inl hu)
    refine ⟨this.1, ?_⟩
    rw [h4 hu hh, this.2, hd hu]
    rfl
  · obtain ⟨h5, h6⟩ := h3 hu
    have hf : s.header = .foundImplicit := by
      rcases hh with hh | hh
      · exact absurd (h5.symm.trans hh) hu
      · exact h5.symm.trans hh
    have := hi hn (.inr hf)
    obtain ⟨h7, h8⟩ := h6 hn hf
    refine ⟨this.1, ?_⟩
    rw [h8, this.2, lits_replicate_default _ _ h7, List.append_nil]

theorem rowCells_written {cfg : Config} {sep : Tok} (hsep : sepOk sep cfg.sep) (base : Nat → Nat) (reaches : Nat → Prop) {rest : List Tok} (hrest : Starts cfg.sep rest) :
    ∀ (row : List Written) (s : St) (cells : List Cell) (eff fuel : Nat) (own : Nat → Nat),
    (∀ w ∈ row, w.ok cfg.sep) → row ≠ [] → row.length ≤ fuel → s.counting = false → s.numCols ≤ 255 → eff + ownWidth row = s.numCols →
    HInv s cells → (s.header = .unknown → ∀ w ∈ row, w.copies = 1) → InRow s.phantoms s.rowIdx eff base own reaches →
    (∀ w ∈ row, ∀ r', s.rowIdx < r' → r' < s.rowIdx + w.rows → reaches r') →
    ∃ cs s', rowCells cfg fuel s (row.flatMap (Written.tokens sep) ++ rest) cells eff = (cells ++ cs, s', rest) ∧ cs.map Cell.shape = rowShape sep row ∧
      HInv s' (cells ++ cs) ∧ Kept s s' ∧ ∀ r', s.rowIdx < r' → cnt s'.phantoms r' = base r' + own r' + reach s.rowIdx r' row := by
  intro row
  induction row with
  | nil => intro s cells eff fuel own _ h; exact absurd rfl h
  | cons w row ih =>
    intro s cells eff fuel own hok _ hfuel hcount hcols hwidth hinv hdup hrow hreach
    obtain ⟨n, rfl⟩ : ∃ n, fuel = n + 1 := ⟨fuel - 1, by simp only [List.length_cons] at hfuel; omega⟩
    have hw := hok w (by simp)
    have hok' : ∀ u ∈ row, u.ok cfg.sep := fun u hu => hok u (by simp [hu])
    rw [ownWidth_cons] at hwidth
    have hcopies : w.copies = (w.copies - 1) + 1 := by have := hw.1.1; omega
    have hmul : w.copies * w.cols = (w.copies - 1) * w.cols + w.cols := by
      rw [hcopies, Nat.add_sub_cancel, Nat.add_mul, Nat.one_mul]
    have hc1 := hw.2.1.1
    obtain ⟨st, h, rp, e1, _, _, e4, e5⟩ := finishCell_written hsep hw { s with counting := s.counting && !w.multiline sep } cells.length
    simp only at e4 e5
    rw [List.flatMap_cons, List.append_assoc]
    have hcell := psvCell_written hsep hw (starts_row hsep hok' hrest) s (by right; rw [Nat.mod_eq_of_lt (by omega)]; omega) cells.length (size (w.tokens sep ++ (row.flatMap (Written.tokens sep) ++ rest)))
    rw [e1] at hcell
    generalize hcl : Cell.new (w.value sep) st w.spec cfg.colSpecs[cells.length]? = cell at hcell e1 e5
    have hshape := spec_spans w (w.value sep) st cfg.colSpecs[cells.length]?
    rw [hcl] at hshape
    obtain ⟨hsh, hcs, hrs⟩ := hshape
    have hdup1 : s.header = .unknown → w.copies = 1 := fun hu => hdup hu w (by simp)
    rw [rowCells, hcell]
    simp only
    have hr1 : ∀ r', s.rowIdx < r' → r' < s.rowIdx + cell.rowSpan → reaches r' := by rw [hrs]; exact hreach w (by simp)
    obtain ⟨ps, p1, p2⟩ := pushCopies_written cell (by omega) base reaches (w.copies - 1) { s with counting := s.counting && !w.multiline sep, header := h, reparse := rp } cells eff own
      (by rw [← hcopies, hcs]; simp only; omega) hrow hr1
    rw [p1]
    have p3 := p2.add cell hr1
    simp only [hcs] at p3
    simp only [addPhantoms, hcs]
    have hrep : List.replicate (w.copies - 1) cell ++ [cell] = List.replicate w.copies cell := by
      rw [← List.replicate_succ', ← hcopies]
    have hinv' : ∀ s' : St, s'.headerRow = s.headerRow → s'.header = h → s'.rows = s.rows → s'.reparse = rp → HInv s' (cells ++ List.replicate w.copies cell) := by
      intro s' a1 a2 a3 a4
      have := HInv.step (cfg := cfg) (sep := sep) (w := w) (col := cells.length) (st := st) (h := h) (rp := rp) hinv hdup1 e4 (by rw [hcl]; exact e5) s' a1 a2 a3 a4
      rw [hcl] at this; exact this
    by_cases hrow0 : row = []
    · subst hrow0
      have h0 : ownWidth [] = 0 := rfl
      rw [if_pos (by omega)]
      refine ⟨List.replicate w.copies cell, { s with counting := s.counting && !w.multiline sep, header := h, reparse := rp, phantoms := (covered s.rowIdx (eff + (w.copies - 1) * w.cols) cell).foldl insertPhantom ps }, by rw [List.append_assoc, hrep]; rfl, ?_, hinv' _ rfl rfl rfl rfl, ⟨rfl, by simp [hcount], rfl, rfl, rfl, rfl⟩, ?_⟩
      · simp [rowShape, hsh]
      · intro r' hlt
        have := (p3 r' hlt).1
        simp only
        simp only [hrs] at this
        rw [this, reach_cons, hmul]
        have : reach s.rowIdx r' [] = 0 := rfl
        split <;> omega
    · have hpos := ownWidth_pos hok' hrow0
      rw [if_neg (by omega), List.append_assoc, hrep]
      obtain ⟨cs, s', f1, f2, f3, f4, f5⟩ := ih { s with counting := s.counting && !w.multiline sep, header := h, reparse := rp, phantoms := (covered s.rowIdx (eff + (w.copies - 1) * w.cols) cell).foldl insertPhantom ps }
        (cells ++ List.replicate w.copies cell) (eff + (w.copies - 1) * w.cols + w.cols) n _ hok' hrow0 (by simp only [List.length_cons] at hfuel; omega) (by simp [hcount]) hcols
        (by simp only; omega) (hinv' _ rfl rfl rfl rfl)
        (by intro hu u hu'
            have : s.header = .unknown := by
              by_cases hx : s.header = .unknown
              · exact hx
              · exact (e4 hx).1 ▸ hu
            exact hdup this u (by simp [hu']))
        p3 (fun u hu => hreach u (by simp [hu]))
      refine ⟨List.replicate w.copies cell ++ cs, s', by rw [f1, List.append_assoc], ?_, by rw [← List.append_assoc]; exact f3, ?_, ?_⟩
      · rw [List.map_append, f2]; simp [rowShape, hsh]
      · obtain ⟨g1, g2, g3, g4, g5, g6⟩ := f4
        exact ⟨g1, by rw [g2]; simp [hcount], g3, g4, g5, g6⟩
      · intro r' hlt
        have := f5 r' hlt
        simp only [hrs] at this
        rw [this, reach_cons, hmul]
        split <;> omega

/-! #### all rows -/

/-- how many columns of row `r'` the first `k` rows cover -/
def covUp (g : Grid) (k r' : Nat) : Nat := ((List.range k).map fun i => reach i r' (g[i]?.getD [])).sum

theorem covUp_succ (g : Grid) (k r' : Nat) : covUp g (k + 1) r' = covUp g k r' + reach k r' (g[k]?.getD []) := by
  simp [covUp, List.range_succ]

theorem sum_eq_zero_of {l : List Nat} (h : ∀ x ∈ l, x = 0) : l.sum = 0 := by
  induction l with
  | nil => rfl
  | cons a l ih => rw [List.sum_cons, h a (by simp), ih fun x hx => h x (by simp [hx])]

theorem reach_eq_zero {i r : Nat} {row : List Written} (h : ∀ w ∈ row, i + w.rows ≤ r) : reach i r row = 0 := by
  unfold reach
  refine sum_eq_zero_of ?_
  intro x hx
  simp only [List.mem_map] at hx
  obtain ⟨w, hw, rfl⟩ := hx
  rw [if_neg (by have := h w hw; omega)]

theorem covUp_eq_zero {g : Grid} {k r' : Nat} (h : ∀ i (hi : i < g.length), i < k → ∀ w ∈ g[i], i + w.rows ≤ r') : covUp g k r' = 0 := by
  unfold covUp
  refine sum_eq_zero_of ?_
  intro x hx
  simp only [List.mem_map, List.mem_range] at hx
  obtain ⟨i, hi, rfl⟩ := hx
  by_cases hl : i < g.length
  · rw [List.getElem?_eq_getElem hl]
    exact reach_eq_zero (h i hl hi)
  · rw [List.getElem?_eq_none (by omega)]; rfl

theorem cnt_eq_zero {ps : List (Nat × Nat)} {r : Nat} (h : cnt ps r = 0) : ∀ p ∈ ps, p.1 ≠ r := by
  intro p hp he
  unfold cnt at h
  rw [List.length_eq_zero_iff, List.filter_eq_nil_iff] at h
  exact h p hp (by simpa using he)

/-- the state of the parser at the start of row `r` of a grid -/
structure AtRow (n : Nat) (g : Grid) (r : Nat) (s : St) : Prop where
  numCols : s.numCols = n
  rowIdx : s.rowIdx = r
  spilled : s.spilled = []
  hinv : HInv s []
  count : ∀ r', r ≤ r' → cnt s.phantoms r' = covUp g r r'

theorem psvRows_end {cfg : Config} {n : Nat} {g : Grid} {s : St} (hn : 1 ≤ n) (hcont : Contained g) (h : AtRow n g g.length s) (fuel : Nat) :
    ∃ s', psvRows cfg (fuel + 1) s [] = some (some s') ∧ Out s' = Out s := by
  have h0 : rowPhantoms s = 0 := by
    have := h.count g.length (Nat.le_refl _)
    rw [covUp_eq_zero (fun i hi _ w hw => hcont i hi w hw)] at this
    simpa [rowPhantoms, cnt, h.rowIdx] using this
  refine ⟨{ s with spilled := [] }, ?_, rfl⟩
  have : psvRow cfg s [] = (none, { s with spilled := [] }, []) := by
    unfold psvRow
    simp only [h0, h.spilled, h.numCols, List.take_nil, List.drop_nil, List.length_nil]
    rw [if_neg (by omega)]
    simp [rowCells, psvCell]
  rw [psvRows, this]

theorem psvRows_written {cfg : Config} {sep : Tok} (hsep : sepOk sep cfg.sep) {n : Nat} (hn : 1 ≤ n ∧ n ≤ 255) (g : Grid)
    (hok : ∀ row ∈ g, ∀ w ∈ row, w.ok cfg.sep) (hfill : Filled n g) (hcont : Contained g) (hal : Aligned g) :
    ∀ (k r : Nat) (s : St) (fuel : Nat), r + k = g.length → k < fuel → AtRow n g r s → s.counting = false →
      (s.header = .unknown → ∀ row, g[r]? = some row → ∀ w ∈ row, w.copies = 1) →
      ∃ s', psvRows cfg fuel s (gridTokens sep (g.drop r)) = some (some s') ∧
        (Out s').map (·.map Cell.shape) = (Out s).map (·.map Cell.shape) ++ (g.drop r).map (rowShape sep) := by
  intro k
  induction k with
  | zero =>
    intro r s fuel hr hf h _ _
    obtain ⟨f, rfl⟩ : ∃ f, fuel = f + 1 := ⟨fuel - 1, by omega⟩
    have : r = g.length := by omega
    subst this
    obtain ⟨s', e1, e2⟩ := psvRows_end (cfg := cfg) hn.1 hcont h f
    refine ⟨s', ?_, ?_⟩
    · simpa [gridTokens] using e1
    · simp [e2]
  | succ k ih =>
    intro r s fuel hr hf h hcount hdup
    obtain ⟨f, rfl⟩ : ∃ f, fuel = f + 1 := ⟨fuel - 1, by omega⟩
    have hlt : r < g.length := by omega
    have hdrop : g.drop r = g[r] :: g.drop (r + 1) := List.drop_eq_getElem_cons hlt
    have hrow : ∀ w ∈ g[r], w.ok cfg.sep := hok _ (List.getElem_mem hlt)
    have hrest : Starts cfg.sep (gridTokens sep (g.drop (r + 1))) := starts_grid hsep fun row hm => hok row (List.mem_of_mem_drop hm)
    have htok : gridTokens sep (g.drop r) = g[r].flatMap (Written.tokens sep) ++ gridTokens sep (g.drop (r + 1)) := by
      rw [hdrop]; simp only [gridTokens, List.flatMap_cons]
    have hfr := hfill r hlt
    have hcov : coveredWidth g r = covUp g r r := rfl
    have hph : rowPhantoms s = covUp g r r := by
      have := h.count r (Nat.le_refl _)
      rw [← this]; simp [rowPhantoms, cnt, h.rowIdx]
    have hget : g[r]? = some g[r] := List.getElem?_eq_getElem hlt
    -- the row is read
    have main : ∃ cs s', psvRow cfg s (gridTokens sep (g.drop r)) = (some cs, s', gridTokens sep (g.drop (r + 1))) ∧ cs.map Cell.shape = rowShape sep g[r] ∧
        HInv s' cs ∧ s'.numCols = n ∧ s'.counting = false ∧ s'.rowIdx = r + 1 ∧ s'.spilled = [] ∧ Out s' = Out s ∧
        ∀ r', r + 1 ≤ r' → cnt s'.phantoms r' = covUp g (r + 1) r' := by
      unfold psvRow
      have hN := h.numCols
      simp only [hph, h.spilled, List.take_nil, List.drop_nil, List.length_nil]
      by_cases he : g[r] = []
      · have : ownWidth g[r] = 0 := by rw [he]; rfl
        rw [if_pos (by omega), htok, he]
        refine ⟨[], { s with spilled := [], rowIdx := s.rowIdx + 1 }, by simp [gridTokens], rfl, ?_, h.numCols, hcount, by simp [h.rowIdx], rfl, rfl, ?_⟩
        · exact h.hinv
        · intro r' hr'
          rw [covUp_succ, hget, Option.getD_some, he]
          have : reach r r' [] = 0 := rfl
          rw [this, h.count r' (by omega)]; rfl
      · have hpos := ownWidth_pos hrow he
        rw [if_neg (by omega), htok]
        have hsz : g[r].length ≤ size (g[r].flatMap (Written.tokens sep) ++ gridTokens sep (g.drop (r + 1))) + 1 := by
          have : ∀ row : List Written, row.length ≤ size (row.flatMap (Written.tokens sep)) := by
            intro row
            induction row with
            | nil => exact Nat.zero_le _
            | cons w row ih =>
              rw [List.flatMap_cons, size_append, List.length_cons]
              have : 1 ≤ size (w.tokens sep) := by
                unfold Written.tokens
                simp only [size_append, size_cons]; omega
              omega
          rw [size_append]; have := this g[r]; omega
        obtain ⟨cs, s', e1, e2, e3, e4, e5⟩ := rowCells_written hsep (fun r' => covUp g r r') (fun r' => ∃ w ∈ g[r], r' < r + w.rows) hrest g[r]
          { s with spilled := [] } [] (covUp g r r) _ (fun _ => 0) hrow he hsz hcount (by simp only [h.numCols]; omega) (by simp only [h.numCols]; omega) h.hinv
          (fun hu => hdup hu _ hget)
          (by
            intro r' hr'
            simp only [h.rowIdx] at hr'
            refine ⟨by simp only [Nat.add_zero]; exact h.count r' (by omega), ?_⟩
            rintro ⟨w, hw, hwr⟩ p hp hpr
            have hz : covUp g r r' = 0 := by
              refine covUp_eq_zero ?_
              intro i hi hir u hu
              refine Nat.le_of_not_lt fun hlt' => ?_
              have := hal r' i r hi hlt (by omega) hr' ⟨u, hu, hlt'⟩ ⟨w, hw, hwr⟩
              omega
            exact absurd hpr (cnt_eq_zero ((h.count r' (by omega)).trans hz) p hp))
          (by
            intro w hw r' _ h2
            simp only [h.rowIdx] at h2
            exact ⟨w, hw, h2⟩)
        rw [e1]
        simp only [List.nil_append]
        have hne : cs ≠ [] := by
          intro hc
          rw [hc] at e2
          cases hg : g[r] with
          | nil => exact he hg
          | cons w row =>
            rw [hg] at e2
            have := (hrow w (by rw [hg]; simp)).1.1
            obtain ⟨m, hm⟩ : ∃ m, w.copies = m + 1 := ⟨w.copies - 1, by omega⟩
            simp [rowShape, hm, List.replicate_succ] at e2
        obtain ⟨k1, k2, k3, k4, k5, k6⟩ := e4
        simp only at k1 k2 k3 k4 k5 k6
        refine ⟨cs, { s' with rowIdx := s'.rowIdx + 1 }, by simp [hne], e2, ?_, by simp [k1, h.numCols], by simp [k2, hcount], by simp [k3, h.rowIdx], by simp [k4], by simp [Out, k5, k6], ?_⟩
        · rw [List.nil_append] at e3; exact e3
        · intro r' hr'
          have := e5 r' (by simp only [h.rowIdx]; omega)
          simp only [h.rowIdx] at this
          rw [this, covUp_succ, hget, Option.getD_some]; rfl
    obtain ⟨cs, s1, m1, m2, m3, m4, m5, m6, m7, m8, m9⟩ := main
    obtain ⟨s2, p1, p2, p3, p4, p5, p6, p7, p8, p9⟩ := pushRow_out m3
    obtain ⟨s3, q1, q2⟩ := ih (r + 1) s2 f (by omega) (by omega) ⟨by rw [p5, m4], by rw [p8, m6], by rw [p9, m7], p3, by rw [p7]; exact m9⟩ (by rw [p6, m5]) (fun hu => absurd hu p4)
    refine ⟨s3, ?_, ?_⟩
    · rw [psvRows, m1]
      simp only [p1]
      exact q1
    · rw [q2, p2, m8, hdrop, m2]
      simp only [List.append_assoc, List.cons_append, List.nil_append, List.map_cons]

/-! #### the first row, where columns are not declared -/

theorem InRow.addFirst {ps : List (Nat × Nat)} {r e : Nat} {base own : Nat → Nat} {reaches : Nat → Prop} (h : InRow ps r e base own reaches) (c : Cell)
    (hr : ∀ r', r < r' → r' < r + c.rowSpan → reaches r') (hc : c.colSpan = 1 ∨ c.rowSpan = 1) :
    InRow ((covered r e c).foldl insertPhantom ps) r (e + 1) base (fun r' => own r' + if r' < r + c.rowSpan then c.colSpan else 0) reaches := by
  have := h.add c hr
  intro r' hlt
  obtain ⟨h1, h2⟩ := this r' hlt
  refine ⟨h1, ?_⟩
  rcases hc with hc | hc
  · rw [hc] at h2; exact h2
  · intro hrr p hp hpr
    rcases (mem_fold _ _ _).1 hp with hp | hp
    · have := (h r' hlt).2 hrr p hp hpr; omega
    · obtain ⟨i, j, hi, hj, _, rfl⟩ := mem_covered.1 hp
      simp only at hpr; omega

theorem firstCopies_written (cell : Cell) (hc : cell.colSpan = 1 ∨ cell.rowSpan = 1) (base : Nat → Nat) (reaches : Nat → Prop) (s : St) (e : Nat)
    (own : Nat → Nat) (hr : ∀ r', s.rowIdx < r' → r' < s.rowIdx + cell.rowSpan → reaches r') (h : InRow s.phantoms s.rowIdx e base own reaches) : ∀ k : Nat,
    ∃ ps, (List.range k).foldl (fun s i => addPhantoms s cell (e + i)) s = { s with phantoms := ps } ∧
      InRow ps s.rowIdx (e + k) base (fun r' => own r' + k * if r' < s.rowIdx + cell.rowSpan then cell.colSpan else 0) reaches := by
  intro k
  induction k with
  | zero => exact ⟨s.phantoms, rfl, by simpa using h⟩
  | succ k ih =>
    obtain ⟨ps, e1, e2⟩ := ih
    refine ⟨(covered s.rowIdx (e + k) cell).foldl insertPhantom ps, ?_, ?_⟩
    · rw [List.range_succ, List.foldl_append, e1]; rfl
    · have := e2.addFirst cell hr hc
      intro r' hlt
      obtain ⟨h1, h2⟩ := this r' hlt
      refine ⟨?_, h2⟩
      rw [h1]
      simp only [Nat.add_mul k 1, Nat.one_mul]
      split <;> omega

theorem firstCells_written {cfg : Config} {sep : Tok} (hsep : sepOk sep cfg.sep) (base : Nat → Nat) (reaches : Nat → Prop) {rest : List Tok} (hrest : Starts cfg.sep rest) :
    ∀ (row : List Written) (s : St) (cells : List Cell) (fuel : Nat) (own : Nat → Nat),
    (∀ w ∈ row, w.ok cfg.sep) → row ≠ [] → row.length < fuel → s.counting = true →
    (∀ w ∈ row.dropLast, w.multiline sep = false) → (∀ w, row.getLast? = some w → w.multiline sep = true ∨ rest = []) →
    (∀ w ∈ row, w.cols = 1 ∨ w.rows = 1) →
    HInv s cells → (s.header = .unknown → ∀ w ∈ row, w.copies = 1) → InRow s.phantoms s.rowIdx cells.length base own reaches →
    (∀ w ∈ row, ∀ r', s.rowIdx < r' → r' < s.rowIdx + w.rows → reaches r') →
    ∃ cs s', firstCells cfg fuel s (row.flatMap (Written.tokens sep) ++ rest) cells = (cells ++ cs, s', rest) ∧ cs.map Cell.shape = rowShape sep row ∧
      HInv s' (cells ++ cs) ∧ s'.numCols = s.numCols ∧ (∀ w, row.getLast? = some w → w.multiline sep = true → s'.counting = false) ∧ s'.rowIdx = s.rowIdx ∧ s'.spilled = s.spilled ∧
      s'.headerRow = s.headerRow ∧ s'.rows = s.rows ∧ ∀ r', s.rowIdx < r' → cnt s'.phantoms r' = base r' + own r' + reach s.rowIdx r' row := by
  intro row
  induction row with
  | nil => intro s cells fuel own _ h; exact absurd rfl h
  | cons w row ih =>
    intro s cells fuel own hok _ hfuel hcount hlines hlast hspan hinv hdup hrow hreach
    obtain ⟨n, rfl⟩ : ∃ n, fuel = n + 1 := ⟨fuel - 1, by simp only [List.length_cons] at hfuel; omega⟩
    have hw := hok w (by simp)
    have hok' : ∀ u ∈ row, u.ok cfg.sep := fun u hu => hok u (by simp [hu])
    have hmax : max w.copies 1 = w.copies := by have := hw.1.1; omega
    obtain ⟨st, h, rp, e1, _, _, e4, e5⟩ := finishCell_written hsep hw { s with counting := s.counting && !w.multiline sep } cells.length
    simp only at e4 e5
    rw [List.flatMap_cons, List.append_assoc]
    have hcell := psvCell_written hsep hw (starts_row hsep hok' hrest) s (.inl hcount) cells.length (size (w.tokens sep ++ (row.flatMap (Written.tokens sep) ++ rest)))
    rw [e1] at hcell
    generalize hcl : Cell.new (w.value sep) st w.spec cfg.colSpecs[cells.length]? = cell at hcell e1 e5
    have hshape := spec_spans w (w.value sep) st cfg.colSpecs[cells.length]?
    rw [hcl] at hshape
    obtain ⟨hsh, hcs, hrs⟩ := hshape
    have hdup1 : s.header = .unknown → w.copies = 1 := fun hu => hdup hu w (by simp)
    rw [firstCells, hcell]
    simp only [hmax]
    have hr1 : ∀ r', s.rowIdx < r' → r' < s.rowIdx + cell.rowSpan → reaches r' := by rw [hrs]; exact hreach w (by simp)
    obtain ⟨ps, p1, p2⟩ := firstCopies_written cell (by rw [hcs, hrs]; exact hspan w (by simp)) base reaches
      { s with counting := s.counting && !w.multiline sep, header := h, reparse := rp } cells.length own hr1 hrow w.copies
    rw [p1]
    simp only
    have hinv' : ∀ s' : St, s'.headerRow = s.headerRow → s'.header = h → s'.rows = s.rows → s'.reparse = rp → HInv s' (cells ++ List.replicate w.copies cell) := by
      intro s' a1 a2 a3 a4
      have := HInv.step (cfg := cfg) (sep := sep) (w := w) (col := cells.length) (st := st) (h := h) (rp := rp) hinv hdup1 e4 (by rw [hcl]; exact e5) s' a1 a2 a3 a4
      rw [hcl] at this; exact this
    have hcnt : ∀ r', s.rowIdx < r' → cnt ps r' = base r' + (own r' + if r' < s.rowIdx + w.rows then w.copies * w.cols else 0) := by
      intro r' hlt
      have f1 : cnt ps r' = base r' + (own r' + w.copies * if r' < s.rowIdx + cell.rowSpan then cell.colSpan else 0) := (p2 r' hlt).1
      rw [f1, hrs, hcs]
      split <;> simp
    by_cases hrow0 : row = []
    · subst hrow0
      have hfin : ∃ s', (if (s.counting && !w.multiline sep) = true then
            firstCells cfg n { s with counting := s.counting && !w.multiline sep, header := h, reparse := rp, phantoms := ps }
              (([] : List Written).flatMap (Written.tokens sep) ++ rest) (cells ++ List.replicate w.copies cell)
          else (cells ++ List.replicate w.copies cell, { s with counting := s.counting && !w.multiline sep, header := h, reparse := rp, phantoms := ps }, ([] : List Written).flatMap (Written.tokens sep) ++ rest)) =
          (cells ++ List.replicate w.copies cell, s', rest) ∧ s' = { s with counting := s.counting && !w.multiline sep, header := h, reparse := rp, phantoms := ps } := by
        rcases hlast w (by simp) with hl | hl
        · refine ⟨_, ?_, rfl⟩
          rw [if_neg (by simp [hl])]; rfl
        · refine ⟨_, ?_, rfl⟩
          subst hl
          split
          · obtain ⟨m, rfl⟩ : ∃ m, n = m + 1 := ⟨n - 1, by simp only [List.length_cons] at hfuel; omega⟩
            simp [firstCells, psvCell]
          · rfl
      obtain ⟨s', f1, f2⟩ := hfin
      refine ⟨List.replicate w.copies cell, s', f1, ?_, hinv' _ (by rw [f2]) (by rw [f2]) (by rw [f2]) (by rw [f2]), by rw [f2], by intro u hu hm; simp only [List.getLast?_singleton, Option.some.injEq] at hu; subst hu; rw [f2]; simp [hm], by rw [f2], by rw [f2], by rw [f2], by rw [f2], ?_⟩
      · simp [rowShape, hsh]
      · intro r' hlt
        rw [f2, reach_cons]
        have : reach s.rowIdx r' [] = 0 := rfl
        rw [this]
        have := hcnt r' hlt
        simp only
        rw [this]
        omega
    · have hml : w.multiline sep = false := hlines w (by cases row with | nil => exact absurd rfl hrow0 | cons a b => simp)
      rw [if_pos (by simp [hml, hcount])]
      obtain ⟨cs, s', f1, f2, f3, f4, f5, f6, f7, f8, f9, f10⟩ := ih { s with counting := s.counting && !w.multiline sep, header := h, reparse := rp, phantoms := ps }
        (cells ++ List.replicate w.copies cell) n (fun r' => own r' + if r' < s.rowIdx + w.rows then w.copies * w.cols else 0) hok' hrow0 (by simp only [List.length_cons] at hfuel; omega) (by simp [hcount, hml])
        (fun u hu => hlines u (by rw [List.dropLast_cons_of_ne_nil hrow0]; simp [hu]))
        (fun u hu => hlast u (by cases row with | nil => exact absurd rfl hrow0 | cons a b => rw [List.getLast?_cons_cons]; exact hu))
        (fun u hu => hspan u (by simp [hu])) (hinv' _ rfl rfl rfl rfl)
        (by intro hu u hu'
            have : s.header = .unknown := by
              by_cases hx : s.header = .unknown
              · exact hx
              · exact (e4 hx).1 ▸ hu
            exact hdup this u (by simp [hu']))
        (by
          intro r' hlt
          refine ⟨hcnt r' hlt, ?_⟩
          simp only [List.length_append, List.length_replicate]
          exact (p2 r' hlt).2)
        (fun u hu => hreach u (by simp [hu]))
      refine ⟨List.replicate w.copies cell ++ cs, s', by rw [f1, List.append_assoc], ?_, by rw [← List.append_assoc]; exact f3, f4, fun u hu hm => f5 u (by cases row with | nil => exact absurd rfl hrow0 | cons a b => rw [List.getLast?_cons_cons] at hu; exact hu) hm, f6, f7, f8, f9, ?_⟩
      · rw [List.map_append, f2]; simp [rowShape, hsh]
      · intro r' hlt
        have := f10 r' hlt
        rw [this, reach_cons]
        simp only
        omega

theorem shape_width {sep : Tok} {cs : List Cell} {row : List Written} (h : cs.map Cell.shape = rowShape sep row) : (cs.map (·.colSpan)).sum = ownWidth row := by
  have : cs.map (·.colSpan) = (cs.map Cell.shape).map (·.2.1) := by simp [Cell.shape]
  rw [this, h]
  clear this h
  induction row with
  | nil => rfl
  | cons w row ih =>
    have e : rowShape sep (w :: row) = List.replicate w.copies (w.value sep, w.cols, w.rows) ++ rowShape sep row := rfl
    rw [e, List.map_append, List.sum_append, ih, ownWidth_cons]
    simp

theorem finishFirstRow_eq {s : St} {cells : List Cell} (h1 : cells ≠ []) (h2 : s.rows = []) (h3 : s.headerRow = none) :
    finishFirstRow s cells = pushRow { s with rowIdx := s.rowIdx + 1 } cells := by
  unfold finishFirstRow pushRow
  simp [h1, h2, h3]

theorem dropNewline_starts {c : Char} {rest : List Tok} (h : Starts c rest) : rest.dropWhile (·.kind = .Newline) = rest := by
  rcases h with rfl | ⟨_, h⟩
  · rfl
  · cases rest with
    | nil => rfl
    | cons t r =>
      have := h t r rfl
      simp only [Tok.ws, Bool.or_eq_false_iff, decide_eq_false_iff_not] at this
      simp [List.dropWhile, this]

theorem allRows_finish (o : Options) (s : St) : (finishTable o s).allRows = Out s := by
  unfold finishTable Table.allRows Out
  split
  · have : s.rows.dropLast ++ s.rows.getLast?.toList = s.rows := by
      cases h : s.rows.getLast? with
      | none => rw [List.getLast?_eq_none_iff] at h; simp [h]
      | some a =>
        obtain ⟨ys, hy⟩ := List.getLast?_eq_some_iff.1 h
        simp [hy]
    simp only [List.append_assoc, this]
  · simp

end Verif.Tables

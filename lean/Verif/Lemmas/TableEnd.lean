import Verif.Lemmas.Tables
/-! The parser of tables ends: every step goes forward. -/
namespace Verif.Tables
open Verif Columns


/-- tokens left after some were read -/
def Less (c : Char) (ts' ts : List Tok) : Prop := size ts' < size ts ∧ (attrOk c ts → attrOk c ts')
def LessEq (c : Char) (ts' ts : List Tok) : Prop := size ts' ≤ size ts ∧ (attrOk c ts → attrOk c ts')

theorem LessEq.rfl' {c : Char} {ts : List Tok} : LessEq c ts ts := ⟨Nat.le_refl _, id⟩
theorem Less.le {c : Char} {a b : List Tok} (h : Less c a b) : LessEq c a b := ⟨Nat.le_of_lt h.1, h.2⟩
theorem LessEq.trans {c : Char} {x y z : List Tok} (h : LessEq c x y) (h' : LessEq c y z) : LessEq c x z := ⟨Nat.le_trans h.1 h'.1, h.2 ∘ h'.2⟩
theorem LessEq.lt {c : Char} {x y z : List Tok} (h : LessEq c x y) (h' : Less c y z) : Less c x z := ⟨Nat.lt_of_le_of_lt h.1 h'.1, h.2 ∘ h'.2⟩
theorem Less.trans_le {c : Char} {x y z : List Tok} (h : Less c x y) (h' : LessEq c y z) : Less c x z := ⟨Nat.lt_of_lt_of_le h.1 h'.1, h.2 ∘ h'.2⟩

theorem LessEq.suffix {c : Char} {a b : List Tok} (h : a <:+ b) : LessEq c a b := by
  obtain ⟨p, rfl⟩ := h
  refine ⟨by rw [size_append]; omega, fun hb => hb.imp id fun hb t ht => hb t (by simp [ht])⟩

theorem Less.cons (c : Char) (t : Tok) (ts : List Tok) : Less c ts (t :: ts) :=
  ⟨by rw [size_cons]; omega, fun hb => hb.imp id fun hb u hu => hb u (by simp [hu])⟩

theorem LessEq.dropChars (c : Char) (n : Nat) (t : Tok) (ts : List Tok) : LessEq c (dropChars n (t :: ts)) (t :: ts) := by
  refine ⟨?_, ?_⟩
  · simp only [Tables.dropChars, size_cons, List.length_drop]; omega
  · refine fun h => h.imp id ?_
    intro h u hu ha
    simp only [Tables.dropChars, List.mem_cons] at hu
    rcases hu with rfl | hu
    · intro hm
      exact h t (by simp) ha (List.mem_of_mem_drop hm)
    · exact h u (by simp [hu]) ha

theorem Less.dropChars (c : Char) (n : Nat) (t : Tok) (ts : List Tok) (hn : 0 < n) (ht : 0 < t.lexeme.length) : Less c (dropChars n (t :: ts)) (t :: ts) := by
  refine ⟨?_, (LessEq.dropChars c n t ts).2⟩
  simp only [Tables.dropChars, size_cons, List.length_drop]; omega

theorem readDuplication_suffix (spec : CellSpec) (ts : List Tok) : (readDuplication spec ts).2 <:+ ts := by
  unfold readDuplication
  split
  · split
    · split
      · exact ⟨[_, _], rfl⟩
      · exact List.suffix_refl _
    · exact List.suffix_refl _
  · exact List.suffix_refl _

theorem readSpans_suffix (spec : CellSpec) (ts : List Tok) : (readSpans spec ts).2 <:+ ts := by
  unfold readSpans
  split
  · split
    · split
      · exact ⟨[_, _], rfl⟩
      · exact List.suffix_refl _
    · split
      · split
        · split
          · exact ⟨[_, _, _], rfl⟩
          · exact List.suffix_refl _
        · split
          · split
            · split
              · exact ⟨[_, _, _, _], rfl⟩
              · exact List.suffix_refl _
            · exact List.suffix_refl _
          · exact List.suffix_refl _
      · exact List.suffix_refl _
  · exact List.suffix_refl _

theorem readH_suffix (spec : CellSpec) (ts : List Tok) : (readH spec ts).2 <:+ ts := by
  unfold readH
  repeat' split
  all_goals first | exact List.suffix_refl _ | exact ⟨[_], rfl⟩

theorem readV_suffix (spec : CellSpec) (ts : List Tok) : (readV spec ts).2 <:+ ts := by
  unfold readV
  repeat' split
  all_goals first | exact List.suffix_refl _ | exact ⟨[_, _], rfl⟩

theorem readStyle_suffix (spec : CellSpec) (ts : List Tok) : (readStyle spec ts).2.2 <:+ ts := by
  unfold readStyle
  repeat' split
  all_goals first | exact List.suffix_refl _ | exact ⟨[_], rfl⟩

theorem readSpec_suffix (ts : List Tok) : (readSpec ts).2.2 <:+ ts := by
  unfold readSpec
  exact (readStyle_suffix _ _).trans ((readV_suffix _ _).trans ((readH_suffix _ _).trans ((readSpans_suffix _ _).trans (readDuplication_suffix _ _))))

theorem readSeparator_less {c : Char} {spec spec' : CellSpec} {b : Bool} {ts ts' : List Tok} (h : readSeparator c spec b ts = some (spec', ts')) : Less c ts' ts := by
  unfold readSeparator at h
  split at h
  · split at h
    · split at h
      · split at h
        · split at h
          · cases h; exact Less.cons _ _ _
          · rename_i hl _ _
            cases h
            exact Less.dropChars _ _ _ _ (by omega) (by rw [hl]; simp)
        · cases h
      · cases h
    · split at h
      · cases h; exact Less.cons _ _ _
      · cases h
  · cases h

theorem cellStart_less {c : Char} {spec : CellSpec} {ts ts' : List Tok} (h : cellStart c ts = some (spec, ts')) : Less c ts' ts := by
  unfold cellStart at h
  split at h
  · cases h
  · split at h
    · cases h
    · split at h
      · rename_i hh
        split at h
        · cases h; exact Less.cons _ _ _
        · cases h
          refine Less.dropChars _ _ _ _ (by omega) ?_
          rename_i t _ _ _
          cases hl : t.lexeme with
          | nil => rw [hl] at hh; cases hh
          | cons a b => simp
      · split at h
        · cases h
        · rename_i t rest _ _ _
          have hs := readSpec_suffix (t :: rest)
          rcases hr : readSpec (t :: rest) with ⟨sp, w, left⟩
          rw [hr] at h hs
          simp only at h
          split at h
          · cases h
          · exact (readSeparator_less h).trans_le (LessEq.suffix hs)

theorem consumeSplitting_less {cfg : Config} {t : Tok} {ts ts' : List Tok} (ha : attrOk cfg.sep ts) (hn : cellStart cfg.sep ts = none)
    (h : consumeSplitting cfg.embedded ts = some (t, ts')) : Less cfg.sep ts' ts := by
  unfold consumeSplitting at h
  split at h
  · cases h
  · rename_i u rest
    split at h
    · cases h; exact Less.cons _ _ _
    · rename_i c hc
      have hcs : c = cfg.sep ∧ ¬ (cfg.sep = ':' ∨ cfg.sep = ';' ∨ cfg.sep = '|' ∨ cfg.sep = ',') := by
        unfold Config.embedded at hc
        split at hc
        · cases hc
        · rename_i hh; cases hc; exact ⟨rfl, hh⟩
      obtain ⟨rfl, hstd⟩ := hcs
      have ha := ha.resolve_left hstd
      split at h
      · rename_i hm
        cases h
        have hattr : u.attr = false := by
          cases hu : u.attr with
          | false => rfl
          | true => exact absurd hm.2 (ha u (by simp) hu)
        have hhead : u.lexeme.head? ≠ some cfg.sep := by
          intro hh
          unfold cellStart at hn
          simp only [hattr, hh, if_true, Bool.false_eq_true, if_false] at hn
          split at hn <;> cases hn
        refine Less.dropChars _ _ _ _ ?_ ?_
        · cases hl : u.lexeme with
          | nil => rw [hl] at hm; simp at hm
          | cons a b =>
            rw [hl] at hhead
            have : a ≠ cfg.sep := by intro e; apply hhead; simp [e]
            simp [List.takeWhile, this]
        · cases hl : u.lexeme with
          | nil => rw [hl] at hm; simp at hm
          | cons a b => simp
      · cases h; exact Less.cons _ _ _

theorem collect_le {cfg : Config} : ∀ (fuel : Nat) (ts : List Tok), attrOk cfg.sep ts → LessEq cfg.sep (collect cfg fuel ts).2.2 ts ∧
    (cellStart cfg.sep ts = none → ts ≠ [] → 0 < fuel → Less cfg.sep (collect cfg fuel ts).2.2 ts) := by
  intro fuel
  induction fuel with
  | zero => intro ts _; exact ⟨LessEq.rfl', fun _ _ h => absurd h (by omega)⟩
  | succ n ih =>
    intro ts ha
    rw [collect]
    split
    · rename_i hs
      refine ⟨LessEq.rfl', fun hn => ?_⟩
      rw [hn] at hs; cases hs
    · rename_i hs
      have hn : cellStart cfg.sep ts = none := by simpa using hs
      split
      · rename_i hc
        refine ⟨LessEq.rfl', fun _ hne => ?_⟩
        cases ts with
        | nil => exact absurd rfl hne
        | cons u rest =>
          unfold consumeSplitting at hc
          simp only at hc
          split at hc
          · cases hc
          · split at hc <;> cases hc
      · rename_i t ts' hc
        have hl := consumeSplitting_less ha hn hc
        have ha' := hl.2 ha
        split
        · have hd : LessEq cfg.sep (ts'.drop 1) ts' := LessEq.suffix (List.drop_suffix 1 ts')
          have := (ih (ts'.drop 1) (hd.2 ha')).1
          have h2 := (this.trans hd).lt hl
          exact ⟨h2.le, fun _ _ _ => h2⟩
        · have := (ih ts' ha').1
          have h2 := this.lt hl
          exact ⟨h2.le, fun _ _ _ => h2⟩

/-- what reading a cell leaves as it is -/
def Same (s s' : St) : Prop := s'.numCols = s.numCols ∧ s'.rowIdx = s.rowIdx ∧ s'.spilled = s.spilled ∧ s'.phantoms = s.phantoms

theorem psvCell_less {cfg : Config} (col : Nat) : ∀ (fuel : Nat) (s : St) (ts : List Tok), attrOk cfg.sep ts →
    LessEq cfg.sep (psvCell cfg col fuel s ts).2.2 ts ∧ Same s (psvCell cfg col fuel s ts).2.1 ∧
      ((psvCell cfg col fuel s ts).1.isSome = true → Less cfg.sep (psvCell cfg col fuel s ts).2.2 ts) := by
  intro fuel
  induction fuel with
  | zero => intro s ts _; exact ⟨LessEq.rfl', ⟨rfl, rfl, rfl, rfl⟩, fun h => by cases h⟩
  | succ n ih =>
    intro s ts ha
    rw [psvCell]
    split
    · exact ⟨LessEq.rfl', ⟨rfl, rfl, rfl, rfl⟩, fun h => by cases h⟩
    · rename_i hne
      have hne' : ts ≠ [] := by simpa using hne
      -- the tokens after the start of the cell
      have main : ∀ spec ts1, (cellStart cfg.sep ts).getD ({}, ts) = (spec, ts1) →
          Less cfg.sep (collect cfg (size (ts1.dropWhile (·.kind = .Whitespace))) (ts1.dropWhile (·.kind = .Whitespace))).2.2 ts := by
        intro spec ts1 h
        have hd : LessEq cfg.sep (ts1.dropWhile (·.kind = .Whitespace)) ts1 := LessEq.suffix (List.dropWhile_suffix _)
        cases hc : cellStart cfg.sep ts with
        | some x =>
          rw [hc, Option.getD_some] at h
          subst h
          have hl := cellStart_less hc
          exact (((collect_le _ _ (hd.2 (hl.2 ha))).1).trans hd).lt hl
        | none =>
          rw [hc, Option.getD_none] at h
          cases h
          by_cases he : ts.dropWhile (·.kind = .Whitespace) = ts
          · rw [he]
            refine (collect_le _ _ ha).2 hc hne' ?_
            cases ts with
            | nil => exact absurd rfl hne'
            | cons t r => rw [size_cons]; omega
          · have hl : Less cfg.sep (ts.dropWhile (·.kind = .Whitespace)) ts := by
              refine ⟨?_, hd.2⟩
              cases ts with
              | nil => exact absurd rfl he
              | cons t r =>
                by_cases hk : t.kind = .Whitespace
                · rw [List.dropWhile_cons_of_pos (by simp [hk])]
                  have := (LessEq.suffix (c := cfg.sep) (List.dropWhile_suffix (fun t : Tok => decide (t.kind = .Whitespace)) (l := r))).1
                  rw [size_cons]; omega
                · rw [List.dropWhile_cons_of_neg (by simp [hk])] at he
                  exact absurd rfl he
            exact ((collect_le _ _ (hd.2 ha)).1).lt hl
      rcases hg : (cellStart cfg.sep ts).getD ({}, ts) with ⟨spec, ts1⟩
      have hm := main spec ts1 hg
      simp only
      rcases hcol : collect cfg (size (ts1.dropWhile (·.kind = .Whitespace))) (ts1.dropWhile (·.kind = .Whitespace)) with ⟨text, newline, ts2⟩
      rw [hcol] at hm
      simp only at hm ⊢
      split
      · obtain ⟨h1, h2, h3⟩ := ih { s with counting := s.counting && !newline } ts2 (hm.2 ha)
        exact ⟨(h1.lt hm).le, h2, fun _ => h1.lt hm⟩
      · exact ⟨hm.le, ⟨rfl, rfl, rfl, rfl⟩, fun _ => hm⟩

theorem pushCopies_same (cell : Cell) : ∀ (n : Nat) (s : St) (cells : List Cell) (eff : Nat),
    (pushCopies cell n s cells eff).1.numCols = s.numCols ∧ (pushCopies cell n s cells eff).1.rowIdx = s.rowIdx := by
  intro n
  induction n with
  | zero => intro s cells eff; exact ⟨rfl, rfl⟩
  | succ n ih =>
    intro s cells eff
    rw [pushCopies]
    split
    · exact ih _ _ _
    · exact ih _ _ _

theorem rowCells_less {cfg : Config} : ∀ (fuel : Nat) (s : St) (ts : List Tok) (cells : List Cell) (eff : Nat), attrOk cfg.sep ts →
    (rowCells cfg fuel s ts cells eff).2.1.numCols = s.numCols ∧ (rowCells cfg fuel s ts cells eff).2.1.rowIdx = s.rowIdx ∧
      (Less cfg.sep (rowCells cfg fuel s ts cells eff).2.2 ts ∨
        LessEq cfg.sep (rowCells cfg fuel s ts cells eff).2.2 ts ∧ (rowCells cfg fuel s ts cells eff).1 = cells ∧ Same s (rowCells cfg fuel s ts cells eff).2.1) := by
  intro fuel
  induction fuel with
  | zero => intro s ts cells eff _; exact ⟨rfl, rfl, .inr ⟨LessEq.rfl', rfl, ⟨rfl, rfl, rfl, rfl⟩⟩⟩
  | succ n ih =>
    intro s ts cells eff ha
    have hp := psvCell_less (cfg := cfg) cells.length (size ts + 1) s ts ha
    rw [rowCells]
    rcases hc : psvCell cfg cells.length (size ts + 1) s ts with ⟨c, s1, ts1⟩
    rw [hc] at hp
    simp only at hp
    obtain ⟨h1, h2, h3⟩ := hp
    cases c with
    | none => exact ⟨h2.1, h2.2.1, .inr ⟨h1, rfl, h2⟩⟩
    | some c =>
      obtain ⟨cell, dupe⟩ := c
      have hl := h3 rfl
      simp only
      rcases hpc : pushCopies cell (dupe - 1) s1 cells eff with ⟨s2, cells2, eff2⟩
      have hsame := pushCopies_same cell (dupe - 1) s1 cells eff
      rw [hpc] at hsame
      simp only at hsame ⊢
      split
      · exact ⟨by rw [addPhantoms]; simp only [hsame.1, h2.1], by rw [addPhantoms]; simp only [hsame.2, h2.2.1], .inl hl⟩
      · obtain ⟨g1, g2, g3⟩ := ih (addPhantoms s2 cell eff2) ts1 (cells2 ++ [cell]) (eff2 + cell.colSpan) (hl.2 ha)
        refine ⟨by rw [g1, addPhantoms]; simp only [hsame.1, h2.1], by rw [g2, addPhantoms]; simp only [hsame.2, h2.2.1], .inl ?_⟩
        rcases g3 with g3 | ⟨g3, _⟩
        · exact g3.le.lt hl
        · exact g3.lt hl

theorem pushRow_same {s s' : St} {row : List Cell} (h : pushRow s row = some s') : Same s s' := by
  unfold pushRow setHeader at h
  split at h
  · split at h
    · cases hr : reparseCells s.reparse row with
      | none => rw [hr] at h; cases h
      | some x => rw [hr] at h; cases h; exact ⟨rfl, rfl, rfl, rfl⟩
    · cases h; exact ⟨rfl, rfl, rfl, rfl⟩
  · cases h; exact ⟨rfl, rfl, rfl, rfl⟩

/-- all covered positions are above this row -/
def lastRow (ps : List (Nat × Nat)) : Nat := (ps.map fun p => p.1 + 1).foldr max 0

theorem lt_lastRow {ps : List (Nat × Nat)} {p : Nat × Nat} (h : p ∈ ps) : p.1 < lastRow ps := by
  induction ps with
  | nil => cases h
  | cons q ps ih =>
    have e : lastRow (q :: ps) = max (q.1 + 1) (lastRow ps) := rfl
    rw [e]
    rcases List.mem_cons.1 h with rfl | h
    · omega
    · have := ih h; omega

/-- one row: either tokens are read, or fewer spilled cells are left, or the row is covered from above -/
theorem psvRow_progress {cfg : Config} {s s' : St} {ts ts' : List Tok} {row : List Cell} (hn : 1 ≤ s.numCols) (ha : attrOk cfg.sep ts)
    (h : psvRow cfg s ts = (some row, s', ts')) : s'.numCols = s.numCols ∧ (Less cfg.sep ts' ts ∨
      LessEq cfg.sep ts' ts ∧ s'.phantoms = s.phantoms ∧ (s'.spilled.length < s.spilled.length ∨
        s'.spilled.length = s.spilled.length ∧ s'.rowIdx = s.rowIdx + 1 ∧ s.rowIdx < lastRow s.phantoms)) := by
  unfold psvRow at h
  simp only at h
  split at h
  · rename_i he
    cases h
    refine ⟨rfl, .inr ⟨LessEq.rfl', rfl, ?_⟩⟩
    simp only [List.length_drop]
    by_cases h0 : s.numCols - rowPhantoms s = 0
    · right
      refine ⟨by omega, trivial, ?_⟩
      have : 0 < rowPhantoms s := by omega
      unfold rowPhantoms at this
      obtain ⟨p, hp⟩ := List.exists_mem_of_length_pos this
      simp only [List.mem_filter, decide_eq_true_eq] at hp
      rw [← hp.2]; exact lt_lastRow hp.1
    · left
      simp only [List.length_take] at he
      omega
  · rename_i he
    have hr := rowCells_less (cfg := cfg) (size ts + 1) { s with spilled := s.spilled.drop (s.numCols - rowPhantoms s) } ts (s.spilled.take (s.numCols - rowPhantoms s)) (rowPhantoms s) ha
    rcases hc : rowCells cfg (size ts + 1) { s with spilled := s.spilled.drop (s.numCols - rowPhantoms s) } ts (s.spilled.take (s.numCols - rowPhantoms s)) (rowPhantoms s) with ⟨cells, s1, ts1⟩
    rw [hc] at h hr
    simp only at h hr
    split at h
    · cases h
    · rename_i hne
      cases h
      refine ⟨hr.1, ?_⟩
      rcases hr.2.2 with g | ⟨g1, g2, g3⟩
      · exact .inl g
      · right
        refine ⟨g1, g3.2.2.2, .inl ?_⟩
        have : row ≠ [] := by simpa using hne
        rw [g2] at this
        have hlen : 0 < (s.spilled.take (s.numCols - rowPhantoms s)).length := List.length_pos_iff.2 this
        simp only [List.length_take] at hlen
        rw [g3.2.2.1]
        simp only [List.length_drop]
        omega

theorem psvRows_ends (cfg : Config) (s : St) (ts : List Tok) (hn : 1 ≤ s.numCols) (ha : attrOk cfg.sep ts) : ∃ fuel, (psvRows cfg fuel s ts).isSome = true := by
  rcases h : psvRow cfg s ts with ⟨row, s1, ts1⟩
  cases row with
  | none => exact ⟨1, by rw [psvRows, h]; rfl⟩
  | some row =>
    have hp := psvRow_progress hn ha h
    cases h2 : pushRow s1 row with
    | none => exact ⟨1, by rw [psvRows, h]; simp [h2]⟩
    | some s2 =>
      have hs := pushRow_same h2
      obtain ⟨fuel, hf⟩ := psvRows_ends cfg s2 ts1 (by rw [hs.1, hp.1]; exact hn) (by
        rcases hp.2 with g | ⟨g, _⟩
        · exact g.2 ha
        · exact g.2 ha)
      exact ⟨fuel + 1, by rw [psvRows, h]; simp only [h2]; exact hf⟩
termination_by (size ts, s.spilled.length, lastRow s.phantoms - s.rowIdx)
decreasing_by
  have hp := psvRow_progress hn ha h
  have hs := pushRow_same h2
  rcases hp.2 with g | ⟨g1, g2, g3⟩
  · exact Prod.Lex.left _ _ g.1
  · rcases Nat.lt_or_eq_of_le g1.1 with g | g
    · exact Prod.Lex.left _ _ g
    · rw [g]
      refine Prod.Lex.right _ ?_
      rcases g3 with g3 | ⟨g3, g4, g5⟩
      · refine Prod.Lex.left _ _ ?_
        rw [hs.2.2.1]; exact g3
      · rw [hs.2.2.1, g3]
        refine Prod.Lex.right _ ?_
        rw [hs.2.2.2, hs.2.1, g2, g4]
        omega

end Verif.Tables

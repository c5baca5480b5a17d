import Verif.Spec.Csv
import Verif.Lemmas.Grid
/-! Lemmas about tables of comma-separated values. -/
namespace Verif.Tables
open Verif Columns

theorem embedded_of_sepKind {cfg : Config} (h : cfg.sepKind ≠ none) : cfg.embedded = none := by
  unfold Config.sepKind at h
  unfold Config.embedded
  split at h
  · simp [*]
  · split at h
    · simp [*]
    · split at h
      · simp [*]
      · split at h
        · simp [*]
        · exact absurd rfl h

theorem consumeSplitting_csv {cfg : Config} {t : Tok} {ts : List Tok} (h : cfg.sepKind = none → cfg.sep ∉ t.lexeme) :
    consumeSplitting cfg.embedded (t :: ts) = some (t, ts) := by
  by_cases hk : cfg.sepKind = none
  · exact consumeSplitting_plain (h hk)
  · rw [embedded_of_sepKind hk]; rfl

/-- whether a line ends in a text -/
def lineEnds (v : List Tok) : Bool := v.any (·.kind = .Newline)

theorem csvText_quoted {cfg : Config} {rest : List Tok} (hr : ∀ t r, rest = t :: r → t.kind ≠ .DoubleQuote) :
    ∀ (v : List Tok) (fuel : Nat) (s : St), (cfg.sepKind = none → ∀ t ∈ v, cfg.sep ∉ t.lexeme) →
    (quoteText v ++ quoteTok :: rest).length < fuel → ∃ fuel', rest.length < fuel' ∧
    csvText cfg fuel true s (quoteText v ++ quoteTok :: rest) =
      (v ++ (csvText cfg fuel' false { s with counting := s.counting && !lineEnds v } rest).1,
        (csvText cfg fuel' false { s with counting := s.counting && !lineEnds v } rest).2) := by
  intro v
  induction v with
  | nil =>
    intro fuel s _ hf
    simp only [quoteText, List.flatMap_nil, List.nil_append, List.length_cons] at hf ⊢
    obtain ⟨n, rfl⟩ : ∃ n, fuel = n + 1 := ⟨fuel - 1, by omega⟩
    refine ⟨n, by omega, ?_⟩
    rw [csvText]
    simp only [if_true, consumeSplitting_kind (show quoteTok.kind ≠ .Word by decide)]
    have e1 : quoteTok.kind ≠ .Newline := by decide
    have e2 : quoteTok.kind = .DoubleQuote := rfl
    simp only [if_false, e2, if_true, Bool.not_true, Bool.false_eq_true, reduceCtorEq]
    have es : { s with counting := s.counting && !lineEnds [] } = s := by cases s; simp [lineEnds]
    rw [es]
    split
    · rename_i u r
      rw [if_neg (hr u r rfl)]
    · rfl
  | cons t v ih =>
    intro fuel s hv hf
    have hv' : cfg.sepKind = none → ∀ u ∈ v, cfg.sep ∉ u.lexeme := fun hk u hu => hv hk u (by simp [hu])
    have ht : cfg.sepKind = none → cfg.sep ∉ t.lexeme := fun hk => hv hk t (by simp)
    by_cases hq : t.kind = .DoubleQuote
    · have e : quoteText (t :: v) = t :: t :: quoteText v := by simp [quoteText, hq]
      rw [e] at hf ⊢
      simp only [List.cons_append, List.length_cons] at hf
      obtain ⟨n, rfl⟩ : ∃ n, fuel = n + 1 := ⟨fuel - 1, by omega⟩
      obtain ⟨f', h1, h2⟩ := ih n s hv' (by omega)
      refine ⟨f', h1, ?_⟩
      have hn : t.kind ≠ .Newline := by rw [hq]; decide
      have hl : lineEnds (t :: v) = lineEnds v := by simp [lineEnds, hq]
      rw [List.cons_append, List.cons_append, csvText]
      simp only [if_true, consumeSplitting_csv ht, if_false, hq, Bool.not_true, Bool.false_eq_true, reduceCtorEq]
      rw [h2, hl]; rfl
    · have e : quoteText (t :: v) = t :: quoteText v := by simp [quoteText, hq]
      rw [e] at hf ⊢
      simp only [List.cons_append, List.length_cons] at hf
      obtain ⟨n, rfl⟩ : ∃ n, fuel = n + 1 := ⟨fuel - 1, by omega⟩
      obtain ⟨f', h1, h2⟩ := ih n (if t.kind = .Newline then { s with counting := false } else s) hv' (by omega)
      refine ⟨f', h1, ?_⟩
      rw [List.cons_append, csvText]
      simp only [if_true, consumeSplitting_csv ht, hq, if_false]
      rw [h2]
      have : { (if t.kind = .Newline then { s with counting := false } else s) with
          counting := (if t.kind = .Newline then { s with counting := false } else s).counting && !lineEnds v } =
          { s with counting := s.counting && !lineEnds (t :: v) } := by
        by_cases hn : t.kind = .Newline
        · simp [hn, lineEnds]
        · simp [hn, lineEnds]
      rw [this]; rfl

theorem csvText_plain {cfg : Config} {rest : List Tok} :
    ∀ (v : List Tok) (fuel : Nat) (s : St), (cfg.sepKind = none → ∀ t ∈ v, cfg.sep ∉ t.lexeme) →
    (∀ t ∈ v, t.kind ≠ .Newline ∧ t.kind ≠ .DoubleQuote ∧ cfg.sepKind ≠ some t.kind) → (v ++ rest).length < fuel →
    ∃ fuel' l, rest.length < fuel' ∧
    csvText cfg fuel false s (v ++ rest) = (v ++ (csvText cfg fuel' false { s with last := l } rest).1, (csvText cfg fuel' false { s with last := l } rest).2) := by
  intro v
  induction v with
  | nil => intro fuel s _ _ hf; exact ⟨fuel, s.last, hf, rfl⟩
  | cons t v ih =>
    intro fuel s hv hk hf
    simp only [List.cons_append, List.length_cons] at hf
    obtain ⟨n, rfl⟩ : ∃ n, fuel = n + 1 := ⟨fuel - 1, by omega⟩
    have ht : cfg.sepKind = none → cfg.sep ∉ t.lexeme := fun hk => hv hk t (by simp)
    obtain ⟨k1, k2, k3⟩ := hk t (by simp)
    obtain ⟨f', l, h1, h2⟩ := ih n { s with last := .other } (fun hk u hu => hv hk u (by simp [hu])) (fun u hu => hk u (by simp [hu])) (by omega)
    refine ⟨f', l, h1, ?_⟩
    have hd : consumeDelimiter cfg s (t :: (v ++ rest)) = (false, { s with last := .other }, t :: (v ++ rest)) := by
      unfold consumeDelimiter
      simp only [k1, if_false]
      split
      · rename_i k hs
        rw [if_neg (by intro e; rw [e] at k3; exact k3 hs)]
      · rename_i hs
        rw [if_neg]
        intro hh
        have := ht hs
        cases hl : t.lexeme <;> simp_all
    rw [List.cons_append, csvText]
    simp only [Bool.false_eq_true, if_false, hd, consumeSplitting_csv ht, k1, k2]
    rw [h2]; rfl

/-- what may follow a cell -/
inductive Follows (cfg : Config) : List Tok → List Tok → Prop
  | sep (t r) : separates cfg t → Follows cfg (t :: r) r
  | line (t r) : t.kind = .Newline → Follows cfg (t :: r) r
  | done : Follows cfg [] []

theorem csvText_end {cfg : Config} {rest r : List Tok} (h : Follows cfg rest r) (fuel : Nat) (hf : rest.length < fuel) (s : St) :
    ∃ l, csvText cfg fuel false s rest = ([], { s with last := l, counting := s.counting && !(rest.head?.any (·.kind = .Newline)) }, r) ∧
      (rest.head?.any (·.kind = .Newline) = true → l = .newline) := by
  obtain ⟨n, rfl⟩ : ∃ n, fuel = n + 1 := ⟨fuel - 1, by omega⟩
  cases h with
  | sep t r hs =>
    refine ⟨.delimiter, ?_, by simp [hs.1]⟩
    rw [csvText]
    have hd : consumeDelimiter cfg s (t :: r) = (true, { s with last := .delimiter }, r) := by
      unfold consumeDelimiter
      simp only [hs.1, if_false]
      have := hs.2.2
      split
      · rename_i k hk; rw [hk] at this; simp [this]
      · rename_i hk; rw [hk] at this; simp at this; simp [this]
    simp [hd, hs.1]
  | line t r hk =>
    refine ⟨.newline, ?_, fun _ => rfl⟩
    rw [csvText]
    have hd : consumeDelimiter cfg s (t :: r) = (true, { s with last := .newline, counting := false }, r) := by
      simp [consumeDelimiter, hk]
    simp [hd, hk]
  | done => exact ⟨s.last, by cases s; simp [csvText], by simp⟩

theorem follows_head {cfg : Config} {rest r : List Tok} (h : Follows cfg rest r) : ∀ t q, rest = t :: q → t.kind ≠ .DoubleQuote := by
  intro t q e
  cases h with
  | sep t r hs => cases e; exact hs.2.1
  | line t r hk => cases e; rw [hk]; decide
  | done => cases e

theorem quoteText_head (v : List Tok) (h : ∀ t, v.head? = some t → t.ws = false) (more : List Tok) :
    (quoteText v ++ quoteTok :: more).dropWhile Tok.ws = quoteText v ++ quoteTok :: more := by
  cases v with
  | nil => rfl
  | cons t v =>
    have := h t rfl
    by_cases hq : t.kind = .DoubleQuote
    · simp [quoteText, hq, this]
    · simp [quoteText, hq, this]

theorem trimEnd_self (ts : List Tok) (hts : ∀ t, ts.getLast? = some t → t.ws = false) : trimEnd ts = ts := by
  have := trimEnd_ws ts [] (by simp) hts
  simpa using this

/-- a cell is read with its text -/
theorem delimitedCell_csv {cfg : Config} (hcsv : cfg.format = .csv) {c : CsvCell} (hc : c.ok cfg) {rest r : List Tok} (h : Follows cfg rest r) (col : Nat) (s : St)
    (hhead : s.header ≠ .foundImplicit) (hnext : ∀ t q, r = t :: q → t.kind ≠ .Newline) :
    ∃ cell l rp, delimitedCell cfg col s (c.tokens ++ rest) =
      (some cell, { s with last := l, reparse := rp, counting := s.counting && !(c.quoted && lineEnds c.text) && !(rest.head?.any (·.kind = .Newline)) }, r) ∧ cell.text = c.text := by
  obtain ⟨h1, h2, h3, h4⟩ := hc
  have hfin : ∀ s' : St, s'.header = s.header → ∃ cell rp n, finishCell cfg s' {} c.text col = ((cell, n), { s' with reparse := rp }) ∧ cell.text = c.text := by
    intro s' hs'
    refine ⟨(finishCell cfg s' {} c.text col).1.1, (finishCell cfg s' {} c.text col).2.reparse, (finishCell cfg s' {} c.text col).1.2, ?_, ?_⟩
    · have : headerAfter cfg s' c.text = s'.header := by simp [headerAfter, hcsv]
      unfold finishCell
      simp only [this]
    · exact trimEnd_self _ h2
  have hcell : ∃ l l', csvCell cfg col s (c.tokens ++ rest) = ((finishCell cfg { s with last := l, counting := s.counting && !(c.quoted && lineEnds c.text) && !(rest.head?.any (·.kind = .Newline)) } {} c.text col).1.1,
      (finishCell cfg { s with last := l, counting := s.counting && !(c.quoted && lineEnds c.text) && !(rest.head?.any (·.kind = .Newline)) } {} c.text col).2, r) ∧ l = l' := by
    unfold csvCell
    cases hq : c.quoted with
    | true =>
      have e : c.tokens ++ rest = quoteTok :: (quoteText c.text ++ quoteTok :: rest) := by
        simp [CsvCell.tokens, hq]
      rw [e]
      have hm : openQuote (quoteTok :: (quoteText c.text ++ quoteTok :: rest)) = (true, quoteText c.text ++ quoteTok :: rest) := by
        have eq : quoteTok.kind = .DoubleQuote := rfl
        simp only [openQuote, eq, if_true]
        rw [quoteText_head _ h1]
      simp only [hm]
      obtain ⟨f', g1, g2⟩ := csvText_quoted (cfg := cfg) (follows_head h) c.text (size (quoteText c.text ++ quoteTok :: rest) + 1) s h3 (by
        have : ∀ ts : List Tok, ts.length ≤ size ts := by
          intro ts; induction ts with
          | nil => simp
          | cons t ts ih => rw [size_cons, List.length_cons]; omega
        have := this (quoteText c.text ++ quoteTok :: rest); omega)
      obtain ⟨l, g3, _⟩ := csvText_end h f' g1 { s with counting := s.counting && !lineEnds c.text }
      rw [g3] at g2
      refine ⟨l, l, ?_, rfl⟩
      rw [g2]
      simp only [List.append_nil, Bool.true_and]
    | false =>
      have e : c.tokens ++ rest = c.text ++ rest := by simp [CsvCell.tokens, hq]
      obtain ⟨hne, hk⟩ := h4 hq
      rw [e]
      have hm : openQuote (c.text ++ rest) = (false, c.text ++ rest) := by
        cases ht : c.text with
        | nil => exact absurd ht hne
        | cons t v =>
          have := (hk t (by rw [ht]; simp)).2.1
          simp [openQuote, this]
      simp only [hm]
      obtain ⟨f', l0, g1, g2⟩ := csvText_plain (cfg := cfg) (rest := rest) c.text (size (c.text ++ rest) + 1) s h3 hk (by
        have : ∀ ts : List Tok, ts.length ≤ size ts := by
          intro ts; induction ts with
          | nil => simp
          | cons t ts ih => rw [size_cons, List.length_cons]; omega
        have := this (c.text ++ rest); omega)
      obtain ⟨l, g3, _⟩ := csvText_end h f' g1 { s with last := l0 }
      rw [g3] at g2
      refine ⟨l, l, ?_, rfl⟩
      rw [g2]
      simp only [List.append_nil, Bool.false_and, Bool.not_false, Bool.and_true]
  obtain ⟨l, _, e1, rfl⟩ := hcell
  obtain ⟨cell, rp, n, e2, e3⟩ := hfin { s with last := l, counting := s.counting && !(c.quoted && lineEnds c.text) && !(rest.head?.any (·.kind = .Newline)) } rfl
  refine ⟨cell, l, rp, ?_, e3⟩
  have hws : ∃ t q, c.tokens ++ rest = t :: q ∧ t.ws = false := by
    cases hq : c.quoted with
    | true => exact ⟨quoteTok, _, by simp [CsvCell.tokens, hq]; rfl, rfl⟩
    | false =>
      obtain ⟨hne, _⟩ := h4 hq
      cases ht : c.text with
      | nil => exact absurd ht hne
      | cons t v => exact ⟨t, v ++ rest, by simp [CsvCell.tokens, hq, ht], h1 t (by rw [ht]; rfl)⟩
  obtain ⟨t, q, et, hw⟩ := hws
  unfold delimitedCell
  have ha : (c.tokens ++ rest).isEmpty = false := by rw [et]; rfl
  have hb : (c.tokens ++ rest).takeWhile Tok.ws = [] := by rw [et]; simp [List.takeWhile, hw]
  have hd : (c.tokens ++ rest).dropWhile Tok.ws = c.tokens ++ rest := by rw [et]; simp [List.dropWhile, hw]
  have hs : { s with counting := s.counting && !false } = s := by cases s; simp
  simp only [ha, hb, hd, List.any_nil, Bool.false_eq_true, if_false, and_false, hcsv, if_true, hs]
  rw [e1, e2]
  simp only
  have hnote : ∀ s' : St, noteHeader s' r = s' := by
    intro s'
    unfold noteHeader
    split
    · rename_i t q
      rw [if_neg (by intro hh; exact hnext t q rfl hh.2.2)]
    · rfl
  rw [hnote]

theorem tokens_head {cfg : Config} {c : CsvCell} (hc : c.ok cfg) : ∃ t q, c.tokens = t :: q ∧ t.ws = false := by
  cases hq : c.quoted with
  | true => exact ⟨quoteTok, quoteText c.text ++ [quoteTok], by simp [CsvCell.tokens, hq], rfl⟩
  | false =>
    cases ht : c.text with
    | nil => exact absurd ht (hc.2.2.2 hq).1
    | cons t v => exact ⟨t, v, by simp [CsvCell.tokens, hq, ht], hc.1 t (by rw [ht]; rfl)⟩

theorem csvLine_head {cfg : Config} (sep : Tok) {l : List CsvCell} (hl : ∀ c ∈ l, c.ok cfg) (hne : l ≠ []) (more : List Tok) :
    ∀ t q, csvLine sep l ++ more = t :: q → t.kind ≠ .Newline := by
  intro t q e
  cases l with
  | nil => exact absurd rfl hne
  | cons c l =>
    obtain ⟨u, r, e', hw⟩ := tokens_head (hl c (by simp))
    have : ∃ r', csvLine sep (c :: l) = u :: r' := by
      cases l with
      | nil => exact ⟨r, by rw [csvLine, e']⟩
      | cons d l => exact ⟨r ++ sep :: csvLine sep (d :: l), by rw [csvLine, e']; rfl; simp⟩
    obtain ⟨r', er⟩ := this
    rw [er, List.cons_append] at e
    cases e
    intro hk; simp [Tok.ws, hk] at hw

/-- what reading cells changes -/
def Step (s s' : St) : Prop := s'.numCols = s.numCols ∧ s'.header = s.header ∧ s'.headerRow = s.headerRow ∧ s'.rows = s.rows

theorem Step.trans {a b c : St} (h : Step a b) (h' : Step b c) : Step a c :=
  ⟨h'.1.trans h.1, h'.2.1.trans h.2.1, h'.2.2.1.trans h.2.2.1, h'.2.2.2.trans h.2.2.2⟩

theorem dsvRowCells_csv {cfg : Config} (hcsv : cfg.format = .csv) {sep : Tok} (hsep : separates cfg sep) {tail r : List Tok} (h : Follows cfg tail r)
    (hnext : ∀ t q, r = t :: q → t.kind ≠ .Newline) : ∀ (l : List CsvCell) (fuel : Nat) (s : St) (cells : List Cell), (∀ c ∈ l, c.ok cfg) → l ≠ [] → l.length ≤ fuel →
    cells.length + l.length = s.numCols → s.header ≠ .foundImplicit →
    ∃ cs s', dsvRowCells cfg fuel s (csvLine sep l ++ tail) cells = (cells ++ cs, s', r) ∧ cs.map (·.text) = l.map (·.text) ∧ Step s s' := by
  intro l
  induction l with
  | nil => intro fuel s cells _ h; exact absurd rfl h
  | cons c l ih =>
    intro fuel s cells hl _ hf hlen hh
    obtain ⟨n, rfl⟩ : ∃ n, fuel = n + 1 := ⟨fuel - 1, by simp only [List.length_cons] at hf; omega⟩
    cases l with
    | nil =>
      obtain ⟨cell, la, rp, e1, e2⟩ := delimitedCell_csv hcsv (hl c (by simp)) h cells.length s hh hnext
      rw [csvLine, dsvRowCells, e1]
      simp only
      rw [if_pos (by simpa using hlen)]
      exact ⟨[cell], _, rfl, by simp [e2], ⟨rfl, rfl, rfl, rfl⟩⟩
    | cons d l =>
      have hl' : ∀ x ∈ d :: l, x.ok cfg := fun x hx => hl x (by simp only [List.mem_cons] at hx ⊢; exact .inr hx)
      obtain ⟨cell, la, rp, e1, e2⟩ := delimitedCell_csv hcsv (hl c (by simp)) (Follows.sep sep (csvLine sep (d :: l) ++ tail) hsep) cells.length s hh
        (csvLine_head sep hl' (by simp) tail)
      have e : csvLine sep (c :: d :: l) ++ tail = c.tokens ++ sep :: (csvLine sep (d :: l) ++ tail) := by
        rw [csvLine]; simp; simp
      rw [e, dsvRowCells, e1]
      simp only
      rw [if_neg (by simp only [List.length_cons, List.length_append, List.length_nil] at hlen ⊢; omega)]
      obtain ⟨cs, s', f1, f2, f3⟩ := ih n { s with last := la, reparse := rp, counting := s.counting && !(c.quoted && lineEnds c.text) && !((sep :: (csvLine sep (d :: l) ++ tail)).head?.any (·.kind = .Newline)) }
        (cells ++ [cell]) hl' (by simp) (by simp only [List.length_cons] at hf ⊢; omega)
        (by simp only [List.length_append, List.length_cons, List.length_nil] at hlen ⊢; omega) hh
      refine ⟨cell :: cs, s', by rw [f1]; simp, by simp [e2, f2], Step.trans ⟨rfl, rfl, rfl, rfl⟩ f3⟩

theorem dsvFirstCells_csv {cfg : Config} (hcsv : cfg.format = .csv) {sep : Tok} (hsep : separates cfg sep) {tail r : List Tok} (h : Follows cfg tail r)
    (hend : tail = [] ∨ tail.head?.any (·.kind = .Newline) = true)
    (hnext : ∀ t q, r = t :: q → t.kind ≠ .Newline) : ∀ (l : List CsvCell) (fuel : Nat) (s : St) (cells : List Cell), (∀ c ∈ l, c.ok cfg) → l ≠ [] → l.length < fuel →
    s.counting = true → (∀ c ∈ l.dropLast, lineEnds c.text = false) → s.header ≠ .foundImplicit →
    ∃ cs s', dsvFirstCells cfg fuel s (csvLine sep l ++ tail) cells = (cells ++ cs, s', r) ∧ cs.map (·.text) = l.map (·.text) ∧ Step s s' := by
  intro l
  induction l with
  | nil => intro fuel s cells _ h; exact absurd rfl h
  | cons c l ih =>
    intro fuel s cells hl _ hf hcount hlines hh
    obtain ⟨n, rfl⟩ : ∃ n, fuel = n + 1 := ⟨fuel - 1, by simp only [List.length_cons] at hf; omega⟩
    cases l with
    | nil =>
      obtain ⟨cell, la, rp, e1, e2⟩ := delimitedCell_csv hcsv (hl c (by simp)) h cells.length s hh hnext
      rw [csvLine, dsvFirstCells, e1]
      simp only
      split
      · rename_i hc
        rcases hend with rfl | hend
        · obtain ⟨m, rfl⟩ : ∃ m, n = m + 1 := ⟨n - 1, by simp only [List.length_cons, List.length_nil] at hf; omega⟩
          cases h
          exact ⟨[cell], { s with last := la, reparse := rp, counting := s.counting && !(c.quoted && lineEnds c.text) && !(([] : List Tok).head?.any (·.kind = .Newline)) },
            by rw [dsvFirstCells, delimitedCell]; rfl, by simp [e2], ⟨rfl, rfl, rfl, rfl⟩⟩
        · simp [hend] at hc
      · exact ⟨[cell], _, rfl, by simp [e2], ⟨rfl, rfl, rfl, rfl⟩⟩
    | cons d l =>
      have hl' : ∀ x ∈ d :: l, x.ok cfg := fun x hx => hl x (by simp only [List.mem_cons] at hx ⊢; exact .inr hx)
      obtain ⟨cell, la, rp, e1, e2⟩ := delimitedCell_csv hcsv (hl c (by simp)) (Follows.sep sep (csvLine sep (d :: l) ++ tail) hsep) cells.length s hh
        (csvLine_head sep hl' (by simp) tail)
      have e : csvLine sep (c :: d :: l) ++ tail = c.tokens ++ sep :: (csvLine sep (d :: l) ++ tail) := by
        rw [csvLine]; simp; simp
      rw [e, dsvFirstCells, e1]
      simp only
      have hcl : lineEnds c.text = false := hlines c (by simp)
      have hc : (s.counting && !(c.quoted && lineEnds c.text) && !((sep :: (csvLine sep (d :: l) ++ tail)).head?.any (·.kind = .Newline))) = true := by
        simp [hcount, hcl, hsep.1]
      rw [if_pos hc]
      obtain ⟨cs, s', f1, f2, f3⟩ := ih n { s with last := la, reparse := rp, counting := s.counting && !(c.quoted && lineEnds c.text) && !((sep :: (csvLine sep (d :: l) ++ tail)).head?.any (·.kind = .Newline)) }
        (cells ++ [cell]) hl' (by simp) (by simp only [List.length_cons] at hf ⊢; omega) hc
        (fun x hx => hlines x (by rw [List.dropLast_cons_of_ne_nil (by simp)]; simp only [List.mem_cons]; exact .inr hx)) hh
      refine ⟨cell :: cs, s', by rw [f1]; simp, by simp [e2, f2], Step.trans ⟨rfl, rfl, rfl, rfl⟩ f3⟩

theorem pushRow_csv {s : St} {row : List Cell} (h : s.header ≠ .foundImplicit) :
    ∃ s', pushRow s row = some s' ∧ Out s' = Out s ++ [row] ∧ s'.header ≠ .foundImplicit ∧ s'.numCols = s.numCols := by
  unfold pushRow setHeader
  split
  · rename_i hc
    refine ⟨{ s with headerRow := some row }, by first | rfl | simp [h], ?_, h, rfl⟩
    have h1 : s.headerRow = none := by simpa using hc.2.1
    have h2 : s.rows = [] := by simpa using hc.1
    simp [Out, h1, h2]
  · refine ⟨_, rfl, by simp [Out, addRow], ?_, rfl⟩
    simp only [addRow]
    split <;> simp_all

/-- what follows a line -/
def lineTail (sep newline : Tok) (final : List Tok) (ls : List (List CsvCell)) : List Tok :=
  if ls = [] then final else newline :: csvLines sep newline final ls

theorem csvLines_cons (sep newline : Tok) (final : List Tok) (l : List CsvCell) (ls : List (List CsvCell)) :
    csvLines sep newline final (l :: ls) = csvLine sep l ++ lineTail sep newline final ls := by
  cases ls with
  | nil => simp [csvLines, lineTail]
  | cons a b => simp [csvLines, lineTail]

theorem follows_tail {cfg : Config} {sep newline : Tok} (hnl : newline.kind = .Newline) {final : List Tok} (hfin : final = [] ∨ final = [newline]) (ls : List (List CsvCell)) :
    Follows cfg (lineTail sep newline final ls) (csvLines sep newline final ls) := by
  unfold lineTail
  split
  · rename_i h
    subst h
    rcases hfin with rfl | rfl
    · exact .done
    · exact .line _ _ hnl
  · exact .line _ _ hnl

theorem csvLines_head {cfg : Config} {sep newline : Tok} {final : List Tok} {ls : List (List CsvCell)} (hl : ∀ l ∈ ls, l ≠ [] ∧ ∀ c ∈ l, c.ok cfg) :
    ∀ t q, csvLines sep newline final ls = t :: q → t.kind ≠ .Newline := by
  intro t q e
  cases ls with
  | nil => simp [csvLines] at e
  | cons l ls =>
    rw [csvLines_cons] at e
    exact csvLine_head sep (hl l (by simp)).2 (hl l (by simp)).1 _ t q e

theorem length_csvLine {cfg : Config} (sep : Tok) {l : List CsvCell} (hl : ∀ c ∈ l, c.ok cfg) : l.length ≤ size (csvLine sep l) := by
  induction l with
  | nil => simp
  | cons c l ih =>
    obtain ⟨u, r, e', _⟩ := tokens_head (hl c (by simp))
    cases l with
    | nil => rw [csvLine, e', size_cons]; simp; omega
    | cons d l =>
      have := ih fun x hx => hl x (by simp only [List.mem_cons] at hx ⊢; exact .inr hx)
      rw [csvLine, size_append, size_cons]
      · simp only [List.length_cons] at this ⊢; omega
      · simp

theorem dsvRows_csv {cfg : Config} (hcsv : cfg.format = .csv) {sep newline : Tok} (hsep : separates cfg sep) (hnl : newline.kind = .Newline) {final : List Tok}
    (hfin : final = [] ∨ final = [newline]) {n : Nat} (hn : 1 ≤ n) : ∀ (ls : List (List CsvCell)) (fuel : Nat) (s : St), (∀ l ∈ ls, l.length = n ∧ ∀ c ∈ l, c.ok cfg) → ls.length < fuel →
    s.numCols = n → s.header ≠ .foundImplicit →
    ∃ s', dsvRows cfg fuel s (csvLines sep newline final ls) = some (some s') ∧ (Out s').map (·.map (·.text)) = (Out s).map (·.map (·.text)) ++ ls.map (·.map (·.text)) := by
  intro ls
  induction ls with
  | nil =>
    intro fuel s _ hf _ _
    obtain ⟨f, rfl⟩ : ∃ f, fuel = f + 1 := ⟨fuel - 1, by omega⟩
    exact ⟨s, by simp [csvLines, dsvRows, dsvRow, dsvRowCells, delimitedCell], by simp⟩
  | cons l ls ih =>
    intro fuel s hl hf hcols hh
    obtain ⟨f, rfl⟩ : ∃ f, fuel = f + 1 := ⟨fuel - 1, by omega⟩
    have hl1 := hl l (by simp)
    have hls : ∀ x ∈ ls, x.length = n ∧ ∀ c ∈ x, c.ok cfg := fun x hx => hl x (by simp [hx])
    have hne : l ≠ [] := by intro e; rw [e] at hl1; simp at hl1; omega
    have hnext : ∀ t q, csvLines sep newline final ls = t :: q → t.kind ≠ .Newline :=
      csvLines_head (cfg := cfg) fun x hx => ⟨by intro e; have := (hls x hx).1; rw [e] at this; simp at this; omega, (hls x hx).2⟩
    rw [csvLines_cons]
    obtain ⟨cs, s1, e1, e2, e3⟩ := dsvRowCells_csv hcsv hsep (follows_tail hnl hfin ls) hnext l (size (csvLine sep l ++ lineTail sep newline final ls) + 1) s [] hl1.2 hne
      (by have := length_csvLine sep hl1.2; rw [size_append]; omega) (by simp [hl1.1, hcols]) hh
    rw [List.nil_append] at e1
    have hcs : cs.isEmpty = false := by
      cases cs with
      | nil => cases l with
        | nil => exact absurd rfl hne
        | cons a b => simp at e2
      | cons a b => rfl
    obtain ⟨s2, p1, p2, p3, p4⟩ := pushRow_csv (s := { s1 with rowIdx := s1.rowIdx + 1 }) (row := cs) (by simp only [e3.2.1]; exact hh)
    obtain ⟨s3, q1, q2⟩ := ih f s2 hls (by simp only [List.length_cons] at hf; omega) (by rw [p4]; simp only [e3.1, hcols]) p3
    refine ⟨s3, ?_, ?_⟩
    · rw [dsvRows, dsvRow, e1]
      simp only [hcs, Bool.false_eq_true, if_false, p1]
      exact q1
    · rw [q2, p2]
      have : Out { s1 with rowIdx := s1.rowIdx + 1 } = Out s := by simp only [Out, e3.2.2.1, e3.2.2.2]
      rw [this]
      simp [e2]

end Verif.Tables

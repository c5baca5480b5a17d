import Verif.Spec.Tables
/-! Lemmas about the cells of tables: a written cell is read back. -/
namespace Verif.Tables
open Verif Columns

/-! #### the start of a cell -/

/-- a token that no specification contains -/
def stops (t : Tok) : Prop := t.kind = .Whitespace ∨ t.kind = .Newline ∨ t.kind = .Backslash

/-- after tokens without the separator comes one that is not part of a specification -/
def Blocked (c : Char) (ts : List Tok) : Prop :=
  ∃ A b rest, ts = A ++ b :: rest ∧ (∀ a ∈ A, c ∉ a.lexeme) ∧ c ∉ b.lexeme ∧ stops b

theorem stops_kind {b : Tok} (h : stops b) : b.kind ≠ .Digits ∧ b.kind ≠ .Star ∧ b.kind ≠ .Plus ∧ b.kind ≠ .Dots ∧ b.kind ≠ .LessThan ∧
    b.kind ≠ .GreaterThan ∧ b.kind ≠ .Caret ∧ b.kind ≠ .CalloutNumber ∧ b.kind ≠ .Word ∧ b.dot = false := by
  unfold Tok.dot
  rcases h with h | h | h <;> rw [h] <;> simp

theorem Blocked.tail {c : Char} {t : Tok} {ts : List Tok} (h : Blocked c (t :: ts)) (hs : ¬ stops t) : Blocked c ts := by
  obtain ⟨A, b, rest, e, h1, h2, h3⟩ := h
  cases A with
  | nil =>
    simp only [List.nil_append, List.cons.injEq] at e
    exact absurd (e.1 ▸ h3) hs
  | cons a A =>
    simp only [List.cons_append, List.cons.injEq] at e
    exact ⟨A, b, rest, e.2, fun x hx => h1 x (by simp [hx]), h2, h3⟩

theorem Blocked.head {c : Char} {t : Tok} {ts : List Tok} (h : Blocked c (t :: ts)) : c ∉ t.lexeme := by
  obtain ⟨A, b, rest, e, h1, h2, h3⟩ := h
  cases A with
  | nil => simp only [List.nil_append, List.cons.injEq] at e; exact e.1 ▸ h2
  | cons a A => simp only [List.cons_append, List.cons.injEq] at e; exact e.1 ▸ h1 a (by simp)

theorem not_stops {t : Tok} {k : TokenKind} (h : t.kind = k) (hk : k ≠ .Whitespace ∧ k ≠ .Newline ∧ k ≠ .Backslash := by decide) : ¬ stops t := by
  rintro (h' | h' | h') <;> rw [h] at h' <;> simp_all

theorem readDuplication_blocked {c : Char} {spec : CellSpec} {ts : List Tok} (h : Blocked c ts) : Blocked c (readDuplication spec ts).2 := by
  unfold readDuplication
  split
  · split
    · rename_i hk
      split
      · exact (h.tail (not_stops hk.1)).tail (not_stops hk.2)
      · exact h
    · exact h
  · exact h

theorem dot_kind {t : Tok} (h : t.dot = true) : t.kind = .Dots := by
  unfold Tok.dot at h; simp_all

theorem readSpans_blocked {c : Char} {spec : CellSpec} {ts : List Tok} (h : Blocked c ts) : Blocked c (readSpans spec ts).2 := by
  unfold readSpans
  split
  · split
    · rename_i hk
      split
      · exact (h.tail (not_stops hk.1)).tail (not_stops hk.2)
      · exact h
    · split
      · split
        · rename_i hk
          split
          · exact ((h.tail (not_stops hk.1)).tail (not_stops hk.2.1)).tail (not_stops hk.2.2)
          · exact h
        · split
          · split
            · rename_i hk
              split
              · exact (((h.tail (not_stops hk.1)).tail (not_stops hk.2.1)).tail (not_stops hk.2.2.1)).tail (not_stops hk.2.2.2)
              · exact h
            · exact h
          · exact h
      · exact h
  · exact h

theorem readH_blocked {c : Char} {spec : CellSpec} {ts : List Tok} (h : Blocked c ts) : Blocked c (readH spec ts).2 := by
  unfold readH
  split
  · split
    · rename_i hk; exact h.tail (not_stops hk)
    · split
      · rename_i hk; exact h.tail (not_stops hk)
      · split
        · rename_i hk; exact h.tail (not_stops hk)
        · split
          · rename_i hk; exact h.tail (not_stops hk.1)
          · exact h
  · exact h

theorem readV_blocked {c : Char} {spec : CellSpec} {ts : List Tok} (h : Blocked c ts) : Blocked c (readV spec ts).2 := by
  unfold readV
  split
  · split
    · rename_i hd
      have ha := not_stops (dot_kind hd)
      split
      · rename_i hk; exact (h.tail ha).tail (not_stops hk)
      · split
        · rename_i hk; exact (h.tail ha).tail (not_stops hk)
        · split
          · rename_i hk; exact (h.tail ha).tail (not_stops hk)
          · exact h
    · exact h
  · exact h

theorem readStyle_blocked {c : Char} {spec : CellSpec} {ts : List Tok} (h : Blocked c ts) : Blocked c (readStyle spec ts).2.2 := by
  unfold readStyle
  split
  · split
    · rename_i hk
      split
      · split
        · split
          · exact h.tail (not_stops hk)
          · exact h
        · exact h
      · exact h
    · exact h
  · exact h

theorem cellStart_blocked {c : Char} {ts : List Tok} (h : Blocked c ts) : cellStart c ts = none := by
  unfold cellStart
  split
  · rfl
  · rename_i t rest
    have hhead := h.head
    split
    · rfl
    · rw [if_neg (by intro he; cases hl : t.lexeme <;> simp_all)]
      split
      · rfl
      · have hb : Blocked c (readSpec (t :: rest)).2.2 := by
          unfold readSpec
          exact readStyle_blocked (readV_blocked (readH_blocked (readSpans_blocked (readDuplication_blocked h))))
        rcases hr : readSpec (t :: rest) with ⟨spec, w, left⟩
        rw [hr] at hb
        simp only
        split
        · rfl
        · unfold readSeparator
          split
          · rename_i u us
            have hu := hb.head
            split
            · split
              · split <;> simp_all
              · rfl
            · rw [if_neg]
              intro he; rw [he] at hu; simp at hu
          · rfl

theorem specKinds {sep : Tok} {c : Char} (h : sepOk sep c) :
    sep.kind ≠ .Digits ∧ sep.kind ≠ .Star ∧ sep.kind ≠ .Plus ∧ sep.kind ≠ .Dots ∧ sep.kind ≠ .LessThan ∧ sep.kind ≠ .GreaterThan ∧
    sep.kind ≠ .Caret ∧ sep.kind ≠ .CalloutNumber ∧ sep.kind ≠ .Word ∧ sep.kind ≠ .Whitespace ∧ sep.kind ≠ .Newline ∧ sep.kind ≠ .Backslash := by
  have := h.2.2.1
  simp only [List.mem_cons, List.not_mem_nil, or_false, not_or] at this
  exact this

theorem cellStart_sep {sep : Tok} {c : Char} (h : sepOk sep c) (rest : List Tok) : cellStart c (sep :: rest) = some ({}, rest) := by
  unfold cellStart
  simp [h.1, h.2.1]

/-! reading the parts of a specification -/

theorem parseNumber_number (n : Nat) (h : n ≤ 255) : parseNumber 255 (numberTok n).lexeme = some n := by
  unfold parseNumber numberTok
  simp only [Nat.ofDigitChars_ten_toDigits]
  rw [if_pos ⟨Nat.toDigits_ne_nil, h⟩]

/-- what may follow the number of copies: no digits followed by a star -/
def AfterCopies (ts : List Tok) : Prop := ∀ a b rest, ts = a :: b :: rest → ¬ (a.kind = .Digits ∧ b.kind = .Star)

theorem readDuplication_written (spec : CellSpec) (n : Nat) (hn : n ≤ 255) (ts : List Tok) (h : AfterCopies ts) :
    readDuplication spec (copiesToks n ++ ts) = (if n = 1 then spec else { spec with duplication := some n }, ts) := by
  unfold copiesToks
  split
  · simp only [List.nil_append]
    unfold readDuplication
    split
    · rename_i a b rest
      rw [if_neg (h a b rest rfl)]
    · rfl
  · simp only [List.cons_append, List.nil_append, readDuplication]
    rw [if_pos ⟨rfl, rfl⟩, parseNumber_number n hn]

/-- what may follow the spans -/
def AfterSpans (ts : List Tok) : Prop :=
  (∀ a rest, ts = a :: rest → a.kind ≠ .Digits) ∧ (∀ a b rest, ts = a :: b :: rest → ¬ (a.kind = .Dots ∧ b.kind = .Digits))

theorem readSpans_written (spec : CellSpec) (n m : Nat) (hn : n ≤ 255) (hm : m ≤ 255) (ts : List Tok) (h : AfterSpans ts) :
    readSpans spec (spanToks n m ++ ts) =
      ({ spec with colSpan := if n = 1 then spec.colSpan else some n, rowSpan := if m = 1 then spec.rowSpan else some m }, ts) := by
  unfold spanToks
  split
  · split
    · simp only [List.nil_append]
      unfold readSpans
      split
      · rename_i a b rest
        have h1 := h.1 a _ rfl
        rw [if_neg (by simp [h1])]
        split
        · rename_i d rest'
          have h2 := h.2 a b _ rfl
          rw [if_neg (by intro hh; exact h2 ⟨hh.1, hh.2.1⟩)]
          split
          · rw [if_neg (by simp [h1])]
          · rfl
        · rfl
      · rfl
    · simp [readSpans, dotTok, plusTok, numberTok, Tok.dot]
      have := parseNumber_number m hm
      unfold numberTok at this
      simp only at this
      rw [this]
  · split
    · simp [readSpans, plusTok]
      have := parseNumber_number n hn
      rw [if_pos (by rfl), this]
    · simp [readSpans, dotTok, plusTok, Tok.dot, parseNumber_number n hn, parseNumber_number m hm]
      simp [numberTok]

/-- what may follow the alignments -/
def AfterAlign (ts : List Tok) : Prop :=
  ∀ a rest, ts = a :: rest → a.kind ≠ .LessThan ∧ a.kind ≠ .GreaterThan ∧ a.kind ≠ .Caret ∧ a.kind ≠ .CalloutNumber ∧ a.kind ≠ .Dots ∧ a.kind ≠ .Digits

theorem readH_none {spec : CellSpec} {ts : List Tok} (h : ∀ a rest, ts = a :: rest → a.kind ≠ .LessThan ∧ a.kind ≠ .GreaterThan ∧ a.kind ≠ .Caret ∧ a.kind ≠ .CalloutNumber) :
    readH spec ts = (spec, ts) := by
  unfold readH
  split
  · rename_i t rest
    have := h t rest rfl
    simp [this]
  · rfl

theorem readV_none {spec : CellSpec} {ts : List Tok} (h : ∀ a rest, ts = a :: rest → a.kind ≠ .Dots) :
    readV spec ts = (spec, ts) := by
  unfold readV
  split
  · rename_i a b rest
    have := h a _ rfl
    rw [if_neg]
    intro hd; exact this (dot_kind hd)
  · rfl

theorem readAlign_written (spec : CellSpec) (hs : spec.hAlign = none ∧ spec.vAlign = none) (a : Option HAlign) (v : Option VAlign)
    (ts : List Tok) (h : AfterAlign ts) :
    readV (readH spec (alignToks a v ++ ts)).1 (readH spec (alignToks a v ++ ts)).2 = ({ spec with hAlign := a, vAlign := v }, ts) := by
  have hV : ∀ spec : CellSpec, readV spec ts = (spec, ts) := fun spec => readV_none (fun a r e => (h a r e).2.2.2.2.1)
  have hH : ∀ spec : CellSpec, readH spec ts = (spec, ts) := fun spec => readH_none (fun a r e => ⟨(h a r e).1, (h a r e).2.1, (h a r e).2.2.1, (h a r e).2.2.2.1⟩)
  obtain ⟨d, cs, rs, ha, va, st⟩ := spec
  obtain ⟨rfl, rfl⟩ := hs
  unfold alignToks
  split
  · rename_i hc
    obtain ⟨rfl, rfl⟩ := hc
    simp [readH, hV]
  · cases a with
    | none =>
      cases v with
      | none => simp [hToks, vToks, hH, hV]
      | some v => cases v <;> simp [hToks, vToks, vTok, dotTok, readH, readV, Tok.dot]
    | some a =>
      cases v with
      | none => cases a <;> simp [hToks, vToks, hTok, readH, hV]
      | some v => cases a <;> cases v <;> simp_all [hToks, vToks, hTok, vTok, dotTok, readH, readV, Tok.dot]

theorem cellStyleOf_tok (s : Style) : ∃ ch, (styleTok s) = ⟨.Word, [ch], false⟩ ∧ cellStyleOf ch = some s := by
  cases s <;> exact ⟨_, rfl, by decide⟩

theorem readStyle_written (spec : CellSpec) (s : Option Style) (hs : spec.style = none) (ts : List Tok) (h : ∀ a rest, ts = a :: rest → a.kind ≠ .Word) :
    readStyle spec (styleToks s ++ ts) = ({ spec with style := s }, false, ts) := by
  obtain ⟨d, cs, rs, ha, va, st⟩ := spec
  obtain rfl : st = none := hs
  cases s with
  | some s =>
    obtain ⟨ch, e, hc⟩ := cellStyleOf_tok s
    simp [styleToks, readStyle, e, hc]
  | none =>
    simp only [styleToks, List.nil_append]
    unfold readStyle
    split
    · rename_i t rest
      rw [if_neg (h t rest rfl)]
    · rfl

theorem styleToks_head (s : Option Style) (ts : List Tok) (P : Tok → Prop) (hw : ∀ t : Tok, t.kind = .Word → P t)
    (h : ∀ a rest, ts = a :: rest → P a) : ∀ a rest, styleToks s ++ ts = a :: rest → P a := by
  intro a rest e
  cases s with
  | some s =>
    simp only [styleToks, List.cons_append, List.cons.injEq] at e
    obtain ⟨ch, e', _⟩ := cellStyleOf_tok s
    exact hw a (by rw [← e.1, e'])
  | none => exact h a rest e

/-- the specification that a written cell starts with -/
def Written.spec (w : Written) : CellSpec where
  duplication := if w.copies = 1 then none else some w.copies
  colSpan := if w.cols = 1 then none else some w.cols
  rowSpan := if w.rows = 1 then none else some w.rows
  hAlign := w.h
  vAlign := w.v
  style := w.style

theorem readSpec_written {sep : Tok} {c : Char} (hsep : sepOk sep c) (w : Written) (hw : w.copies ≤ 255 ∧ w.cols ≤ 255 ∧ w.rows ≤ 255) (ts : List Tok) :
    readSpec (copiesToks w.copies ++ (spanToks w.cols w.rows ++ (alignToks w.h w.v ++ (styleToks w.style ++ (sep :: ts))))) =
      (w.spec, false, sep :: ts) := by
  have hk := specKinds hsep
  have hsepHead : ∀ (P : Tok → Prop), P sep → ∀ a rest, sep :: ts = a :: rest → P a := by
    intro P hP a rest e; simp only [List.cons.injEq] at e; exact e.1 ▸ hP
  have h4 : ∀ a rest, sep :: ts = a :: rest → a.kind ≠ .Word := hsepHead _ hk.2.2.2.2.2.2.2.2.1
  have h3 : AfterAlign (styleToks w.style ++ (sep :: ts)) := by
    intro a rest e
    refine styleToks_head w.style (sep :: ts) (fun a => a.kind ≠ .LessThan ∧ a.kind ≠ .GreaterThan ∧ a.kind ≠ .Caret ∧ a.kind ≠ .CalloutNumber ∧ a.kind ≠ .Dots ∧ a.kind ≠ .Digits) ?_ ?_ a rest e
    · intro t ht; simp [ht]
    · exact hsepHead _ ⟨hk.2.2.2.2.1, hk.2.2.2.2.2.1, hk.2.2.2.2.2.2.1, hk.2.2.2.2.2.2.2.1, hk.2.2.2.1, hk.1⟩
  have h2 : AfterSpans (alignToks w.h w.v ++ (styleToks w.style ++ (sep :: ts))) := by
    unfold alignToks
    split
    · exact ⟨by intro a r e; simp only [List.cons_append, List.cons.injEq] at e; rw [← e.1]; simp,
        by intro a b r e; simp only [List.cons_append, List.cons.injEq] at e; rw [← e.1]; simp⟩
    · cases w.h with
      | some a =>
        refine ⟨?_, ?_⟩
        · intro x r e; simp only [hToks, List.cons_append, List.cons.injEq] at e; rw [← e.1]; cases a <;> simp [hTok]
        · intro x y r e; simp only [hToks, List.cons_append, List.cons.injEq] at e; rw [← e.1]; cases a <;> simp [hTok]
      | none =>
        cases w.v with
        | some v =>
          refine ⟨?_, ?_⟩
          · intro x r e; simp only [hToks, vToks, List.nil_append, List.cons_append, List.cons.injEq] at e; rw [← e.1]; simp [dotTok]
          · intro x y r e; simp only [hToks, vToks, List.nil_append, List.cons_append, List.cons.injEq] at e; rw [← e.2.1]; cases v <;> simp [vTok]
        | none =>
          simp only [hToks, vToks, List.nil_append]
          refine ⟨fun a r e => (h3 a r e).2.2.2.2.2, fun a b r e hh => (h3 a _ e).2.2.2.2.1 hh.1⟩
  have h1 : AfterCopies (spanToks w.cols w.rows ++ (alignToks w.h w.v ++ (styleToks w.style ++ (sep :: ts)))) := by
    intro a b rest e
    unfold spanToks at e
    split at e
    · split at e
      · exact fun hh => h2.1 a _ e hh.1
      · simp only [List.cons_append, List.cons.injEq] at e
        rw [← e.1]; simp [dotTok]
    · split at e
      · simp only [List.cons_append, List.cons.injEq] at e
        rw [← e.2.1]; simp [plusTok]
      · simp only [List.cons_append, List.cons.injEq] at e
        rw [← e.2.1]; simp [dotTok]
  unfold readSpec
  rw [readDuplication_written _ _ hw.1 _ h1]
  simp only
  rw [readSpans_written _ _ _ hw.2.1 hw.2.2 _ h2]
  simp only
  have := readAlign_written { (if w.copies = 1 then ({} : CellSpec) else { ({} : CellSpec) with duplication := some w.copies }) with
      colSpan := if w.cols = 1 then (if w.copies = 1 then ({} : CellSpec) else { ({} : CellSpec) with duplication := some w.copies }).colSpan else some w.cols
      rowSpan := if w.rows = 1 then (if w.copies = 1 then ({} : CellSpec) else { ({} : CellSpec) with duplication := some w.copies }).rowSpan else some w.rows }
    (by constructor <;> (split <;> rfl)) w.h w.v _ h3
  rcases hr : readH { (if w.copies = 1 then ({} : CellSpec) else { ({} : CellSpec) with duplication := some w.copies }) with
      colSpan := if w.cols = 1 then (if w.copies = 1 then ({} : CellSpec) else { ({} : CellSpec) with duplication := some w.copies }).colSpan else some w.cols
      rowSpan := if w.rows = 1 then (if w.copies = 1 then ({} : CellSpec) else { ({} : CellSpec) with duplication := some w.copies }).rowSpan else some w.rows }
      (alignToks w.h w.v ++ (styleToks w.style ++ sep :: ts)) with ⟨spec', ts'⟩
  rw [hr] at this
  simp only at this ⊢
  rw [this]
  simp only
  rw [readStyle_written _ _ (by split <;> rfl) _ h4]
  congr 1
  unfold Written.spec
  split <;> rfl

theorem prefix_length (w : Written) : (copiesToks w.copies ++ (spanToks w.cols w.rows ++ (alignToks w.h w.v ++ styleToks w.style))) = [] ∨
    ∃ t rest, (copiesToks w.copies ++ (spanToks w.cols w.rows ++ (alignToks w.h w.v ++ styleToks w.style))) = t :: rest ∧
      t.attr = false ∧ canStart t = true ∧ ∀ sep c, sepOk sep c → t.lexeme.head? ≠ some c := by
  have digits : ∀ n c, c.isDigit = false → (numberTok n).lexeme.head? ≠ some c := by
    intro n c hc he
    have hmem : c ∈ Nat.toDigits 10 n := List.mem_of_mem_head? he
    have := Nat.isDigit_of_mem_toDigits (by omega) (by omega) hmem
    rw [hc] at this; cases this
  by_cases h1 : w.copies = 1
  · by_cases h2 : w.cols = 1
    · by_cases h3 : w.rows = 1
      · simp only [copiesToks, spanToks, h1, h2, h3, if_true, List.nil_append]
        by_cases h4 : w.h = some .left ∧ w.v = some .bottom
        · refine .inr ⟨_, _, by rw [alignToks, if_pos h4]; rfl, rfl, rfl, ?_⟩
          intro sep c hs he; have := hs.2.2.2.2; simp at he; simp [← he] at this
        · rw [alignToks, if_neg h4]
          rcases ha : w.h with _ | a
          · rcases hv : w.v with _ | v
            · rcases hst : w.style with _ | st
              · exact .inl rfl
              · refine .inr ⟨_, _, rfl, by cases st <;> rfl, by cases st <;> rfl, ?_⟩
                intro sep c hs he; have := hs.2.2.2.2; cases st <;> (simp [styleTok] at he; simp [← he] at this)
            · refine .inr ⟨_, _, rfl, rfl, rfl, ?_⟩
              intro sep c hs he; have := hs.2.2.2.2; simp [dotTok] at he; simp [← he] at this
          · refine .inr ⟨_, _, rfl, by cases a <;> rfl, by cases a <;> rfl, ?_⟩
            intro sep c hs he; have := hs.2.2.2.2; cases a <;> (simp [hTok] at he; simp [← he] at this)
      · simp only [copiesToks, spanToks, h1, h2, h3, if_true, List.nil_append, if_false]
        refine .inr ⟨_, _, rfl, rfl, rfl, ?_⟩
        intro sep c hs he; have := hs.2.2.2.2; simp [dotTok] at he; simp [← he] at this
    · by_cases h3 : w.rows = 1
      · simp only [copiesToks, spanToks, h1, h2, h3, if_true, List.nil_append, if_false]
        exact .inr ⟨_, _, rfl, rfl, rfl, fun sep c hs => digits _ c hs.2.2.2.1⟩
      · simp only [copiesToks, spanToks, h1, h2, h3, if_true, List.nil_append, if_false]
        exact .inr ⟨_, _, rfl, rfl, rfl, fun sep c hs => digits _ c hs.2.2.2.1⟩
  · simp only [copiesToks, h1, if_false]
    exact .inr ⟨_, _, rfl, rfl, rfl, fun sep c hs => digits _ c hs.2.2.2.1⟩

theorem cellStart_written {sep : Tok} {c : Char} (hsep : sepOk sep c) (w : Written) (hw : w.copies ≤ 255 ∧ w.cols ≤ 255 ∧ w.rows ≤ 255) (ts : List Tok) :
    cellStart c (copiesToks w.copies ++ (spanToks w.cols w.rows ++ (alignToks w.h w.v ++ (styleToks w.style ++ (sep :: ts))))) = some (w.spec, ts) := by
  have hr := readSpec_written hsep w hw ts
  have e : copiesToks w.copies ++ (spanToks w.cols w.rows ++ (alignToks w.h w.v ++ (styleToks w.style ++ (sep :: ts)))) =
      (copiesToks w.copies ++ (spanToks w.cols w.rows ++ (alignToks w.h w.v ++ styleToks w.style))) ++ sep :: ts := by
    simp only [List.append_assoc]
  rw [e] at hr ⊢
  rcases prefix_length w with h | ⟨t, rest, h, h1, h2, h3⟩
  · rw [h] at hr ⊢
    simp only [List.nil_append] at hr ⊢
    rw [cellStart_sep hsep]
    have := specKinds hsep
    have hspec : readSpec (sep :: ts) = ({}, false, sep :: ts) := by
      unfold readSpec
      have a1 : readDuplication {} (sep :: ts) = ({}, sep :: ts) := by
        cases ts <;> simp [readDuplication, this]
      have a2 : readSpans {} (sep :: ts) = ({}, sep :: ts) := by
        rcases ts with _ | ⟨b, _ | ⟨c, _ | ⟨d, ts⟩⟩⟩ <;> simp [readSpans, this]
      rw [a1]; simp only
      rw [a2]; simp only
      rw [readH_none (by intro a r e; simp only [List.cons.injEq] at e; rw [← e.1]; simp [this])]; simp only
      rw [readV_none (by intro a r e; simp only [List.cons.injEq] at e; rw [← e.1]; simp [this])]; simp only
      simp [readStyle, this]
    rw [hspec] at hr
    rw [(Prod.mk.inj hr).1]
  · rw [h] at hr ⊢
    simp only [List.cons_append] at hr ⊢
    unfold cellStart
    simp only [h1, Bool.false_eq_true, if_false, h3 sep c hsep, h2, Bool.not_true, hr]
    rw [if_neg (by simp; omega), readSeparator, if_neg (by simp), if_pos hsep.1]

/-! #### the text of a cell -/

theorem blocked_cons {c : Char} {t : Tok} {ts : List Tok} (h : c ∉ t.lexeme) (hb : Blocked c ts) : Blocked c (t :: ts) := by
  obtain ⟨A, b, rest, rfl, h1, h2, h3⟩ := hb
  exact ⟨t :: A, b, rest, rfl, by intro a ha; rcases List.mem_cons.1 ha with rfl | ha; exact h; exact h1 a ha, h2, h3⟩

theorem blocked_stop {c : Char} {t : Tok} {ts : List Tok} (h : c ∉ t.lexeme) (hs : stops t) : Blocked c (t :: ts) :=
  ⟨[], t, ts, rfl, by simp, h, hs⟩

theorem blocked_pieces {c : Char} {sep : Tok} (hsep : sepOk sep c) {ps : List Piece} (h : ∀ t, Piece.plain t ∈ ps → c ∉ t.lexeme) {ts : List Tok} (hb : Blocked c ts) :
    Blocked c (ps.flatMap (Piece.tokens sep) ++ ts) := by
  induction ps with
  | nil => exact hb
  | cons p ps ih =>
    simp only [List.flatMap_cons, List.append_assoc]
    cases p with
    | plain t => exact blocked_cons (h t (by simp)) (ih fun u hu => h u (by simp [hu]))
    | escaped =>
      refine blocked_stop ?_ (.inr (.inr rfl))
      have := hsep.2.2.2.2
      simp only [backslash, List.mem_cons, List.not_mem_nil, or_false, not_or] at this ⊢
      exact this.2.2.2.2.2.2.2.2.2.2.2.2.2.2

theorem consumeSplitting_plain {cfg : Config} {t : Tok} {ts : List Tok} (h : cfg.sep ∉ t.lexeme) :
    consumeSplitting cfg.embedded (t :: ts) = some (t, ts) := by
  unfold consumeSplitting Config.embedded
  split
  · rename_i heq; cases heq
  · rename_i heq
    cases heq
    split
    · rfl
    · rename_i sep he
      split at he
      · cases he
      · cases he
        rw [if_neg (by simp [h])]

theorem consumeSplitting_kind {e : Option Char} {t : Tok} {ts : List Tok} (h : t.kind ≠ .Word) :
    consumeSplitting e (t :: ts) = some (t, ts) := by
  unfold consumeSplitting
  cases e <;> simp [h]

/-- what follows a cell: nothing, or the start of another one -/
def Starts (c : Char) (ts : List Tok) : Prop :=
  ts = [] ∨ (cellStart c ts).isSome = true ∧ ∀ t rest, ts = t :: rest → t.ws = false

theorem size_cons (t : Tok) (ts : List Tok) : size (t :: ts) = t.lexeme.length + 1 + size ts := by simp [size]
theorem size_append (a b : List Tok) : size (a ++ b) = size a + size b := by simp [size]

theorem collect_rest {cfg : Config} {rest : List Tok} (h : Starts cfg.sep rest) {fuel : Nat} (hf : size rest ≤ fuel) :
    collect cfg fuel rest = ([], false, rest) := by
  rcases h with rfl | ⟨h, _⟩
  · cases fuel with
    | zero => rfl
    | succ n => simp [collect, cellStart, consumeSplitting]
  · cases rest with
    | nil => simp [cellStart] at h
    | cons t ts =>
      rw [size_cons] at hf
      obtain ⟨n, rfl⟩ : ∃ n, fuel = n + 1 := ⟨fuel - 1, by omega⟩
      rw [collect, if_pos h]

theorem ws_stops {t : Tok} (h : t.ws = true) : stops t := by
  unfold Tok.ws at h
  simp only [Bool.or_eq_true, decide_eq_true_eq] at h
  rcases h with h | h
  · exact .inl h
  · exact .inr (.inl h)

theorem collect_ws {cfg : Config} {rest : List Tok} (hr : Starts cfg.sep rest) (ws : List Tok) (hws : ∀ t ∈ ws, t.ws = true ∧ cfg.sep ∉ t.lexeme) :
    ∀ fuel, size (ws ++ rest) ≤ fuel → collect cfg fuel (ws ++ rest) = (ws, ws.any (·.kind = .Newline), rest) := by
  induction ws with
  | nil => intro fuel hf; exact collect_rest hr hf
  | cons t ws ih =>
    intro fuel hf
    rw [List.cons_append, size_cons] at hf
    obtain ⟨n, rfl⟩ : ∃ n, fuel = n + 1 := ⟨fuel - 1, by omega⟩
    have ht := hws t (by simp)
    have hs := ws_stops ht.1
    rw [List.cons_append, collect, cellStart_blocked (blocked_stop ht.2 hs), consumeSplitting_plain ht.2]
    have hb : t.kind ≠ .Backslash := by rcases hs with h | h | h <;> simp_all [Tok.ws]
    simp only [Option.isSome_none, Bool.false_eq_true, if_false, hb, false_and]
    rw [ih (fun u hu => hws u (by simp [hu])) n (by omega)]
    simp

theorem collect_pieces {cfg : Config} {sep : Tok} (hsep : sepOk sep cfg.sep) {rest : List Tok} (hr : Starts cfg.sep rest) (ws : List Tok) (hne : ws ≠ [])
    (hws : ∀ t ∈ ws, t.ws = true ∧ cfg.sep ∉ t.lexeme) (ps : List Piece) (hps : ∀ t, Piece.plain t ∈ ps → cfg.sep ∉ t.lexeme) :
    ∀ fuel, size (ps.flatMap (Piece.tokens sep) ++ (ws ++ rest)) ≤ fuel →
      collect cfg fuel (ps.flatMap (Piece.tokens sep) ++ (ws ++ rest)) =
        (ps.map (Piece.value sep) ++ ws, (ps.map (Piece.value sep) ++ ws).any (·.kind = .Newline), rest) := by
  induction ps with
  | nil => intro fuel hf; exact collect_ws hr ws hws fuel hf
  | cons p ps ih =>
    intro fuel hf
    have hps' : ∀ t, Piece.plain t ∈ ps → cfg.sep ∉ t.lexeme := fun t ht => hps t (by simp [ht])
    have hbr : Blocked cfg.sep (ws ++ rest) := by
      cases ws with
      | nil => exact absurd rfl hne
      | cons u ws => exact blocked_stop (hws u (by simp)).2 (ws_stops (hws u (by simp)).1)
    have hb : Blocked cfg.sep (ps.flatMap (Piece.tokens sep) ++ (ws ++ rest)) := blocked_pieces hsep hps' hbr
    cases p with
    | plain t =>
      have ht := hps t (by simp)
      simp only [List.flatMap_cons, Piece.tokens, List.cons_append, List.nil_append] at hf ⊢
      rw [size_cons] at hf
      obtain ⟨n, rfl⟩ : ∃ n, fuel = n + 1 := ⟨fuel - 1, by omega⟩
      rw [collect, cellStart_blocked (blocked_cons ht hb), consumeSplitting_plain ht]
      simp only [Option.isSome_none, Bool.false_eq_true, if_false, cellStart_blocked hb, and_false]
      rw [ih hps' n (by omega)]
      simp [Piece.value]
    | escaped =>
      simp only [List.flatMap_cons, Piece.tokens, List.cons_append, List.nil_append] at hf ⊢
      rw [size_cons, size_cons] at hf
      obtain ⟨n, rfl⟩ : ∃ n, fuel = n + 1 := ⟨fuel - 1, by omega⟩
      have hbs : Blocked cfg.sep (backslash :: sep :: (ps.flatMap (Piece.tokens sep) ++ (ws ++ rest))) := by
        refine blocked_stop ?_ (.inr (.inr rfl))
        have := hsep.2.2.2.2
        simp only [backslash, List.mem_cons, List.not_mem_nil, or_false, not_or] at this ⊢
        exact this.2.2.2.2.2.2.2.2.2.2.2.2.2.2
      rw [collect, cellStart_blocked hbs, consumeSplitting_kind (by decide)]
      simp only [Option.isSome_none, Bool.false_eq_true, if_false, cellStart_sep hsep, Option.isSome_some, and_true]
      rw [if_pos (by rfl)]
      simp only [List.drop_one, List.tail_cons, List.take_one, List.head?_cons, Option.toList]
      rw [ih hps' n (by omega)]
      have := specKinds hsep
      simp [Piece.value, this]

theorem trimEnd_ws (ts ws : List Tok) (hws : ∀ t ∈ ws, t.ws = true) (hts : ∀ t, ts.getLast? = some t → t.ws = false) : trimEnd (ts ++ ws) = ts := by
  unfold trimEnd
  rw [List.reverse_append, List.dropWhile_append_of_pos (by intro a ha; exact hws a (by simpa using ha))]
  cases h : ts.reverse with
  | nil => simp_all
  | cons a r =>
    have : ts.getLast? = some a := by rw [List.getLast?_eq_head?_reverse, h]; rfl
    rw [List.dropWhile_cons_of_neg (by simp [hts a this]), ← h, List.reverse_reverse]

theorem trimmed_ws (ts ws : List Tok) (hws : ∀ t ∈ ws, t.ws = true) (hts : ∀ t, ts.getLast? = some t → t.ws = false) : trimmed (ts ++ ws) = ws.reverse := by
  unfold trimmed
  rw [List.reverse_append, List.takeWhile_append_of_pos (by intro a ha; exact hws a (by simpa using ha))]
  cases h : ts.reverse with
  | nil => simp
  | cons a r =>
    have : ts.getLast? = some a := by rw [List.getLast?_eq_head?_reverse, h]; rfl
    rw [List.takeWhile_cons_of_neg (by simp [hts a this]), List.append_nil]

/-- the white space after the text that the parser keeps until the end of the cell -/
def Written.kept (w : Written) : List Tok := if w.text = [] then w.trail.dropWhile (·.kind = .Whitespace) else w.trail

/-- whether a line ends in the cell -/
def Written.multiline (sep : Tok) (w : Written) : Bool := (w.value sep ++ w.kept).any (·.kind = .Newline)

theorem dropWhile_lead (lead ts : List Tok) (h : ∀ t ∈ lead, t.kind = .Whitespace) :
    (lead ++ ts).dropWhile (·.kind = .Whitespace) = ts.dropWhile (·.kind = .Whitespace) :=
  List.dropWhile_append_of_pos (by intro a ha; simp [h a ha])

theorem dropWhile_starts {c : Char} {rest : List Tok} (h : Starts c rest) (ws : List Tok) :
    (ws ++ rest).dropWhile (·.kind = .Whitespace) = ws.dropWhile (·.kind = .Whitespace) ++ rest := by
  induction ws with
  | nil =>
    rcases h with rfl | ⟨_, h⟩
    · rfl
    · cases rest with
      | nil => rfl
      | cons t r =>
        have := h t r rfl
        simp only [Tok.ws, Bool.or_eq_false_iff, decide_eq_false_iff_not] at this
        simp [List.dropWhile, this]
  | cons t ws ih =>
    by_cases hk : t.kind = .Whitespace
    · simp [List.dropWhile, hk, ih]
    · simp [List.dropWhile, hk]

theorem value_last {c : Char} {sep : Tok} (hsep : sepOk sep c) {w : Written} (hw : w.ok c) :
    ∀ t, (w.value sep).getLast? = some t → t.ws = false := by
  intro t ht
  unfold Written.value at ht
  rw [List.getLast?_map] at ht
  cases hl : w.text.getLast? with
  | none => simp [hl] at ht
  | some p =>
    simp only [hl, Option.map_some, Option.some.injEq] at ht
    cases p with
    | plain u =>
      have := hw.2.2.2.2.2.2.1 u hl
      simp only [Piece.value] at ht
      rw [← ht]; exact this
    | escaped =>
      have := specKinds hsep
      simp only [Piece.value] at ht
      rw [← ht]; simp [Tok.ws, this]

theorem kept_ws {c : Char} {w : Written} (hw : w.ok c) : ∀ t ∈ w.kept, t.ws = true ∧ c ∉ t.lexeme := by
  intro t ht
  refine hw.2.2.2.2.2.2.2.2 t ?_
  unfold Written.kept at ht
  split at ht
  · exact (List.dropWhile_sublist _).subset ht
  · exact ht

theorem tokens_starts {c : Char} {sep : Tok} (hsep : sepOk sep c) {w : Written} (hw : w.ok c) (rest : List Tok) :
    Starts c (w.tokens sep ++ rest) := by
  right
  have e : w.tokens sep ++ rest = copiesToks w.copies ++ (spanToks w.cols w.rows ++ (alignToks w.h w.v ++ (styleToks w.style ++
    (sep :: (w.lead ++ (w.text.flatMap (Piece.tokens sep) ++ (w.trail ++ rest))))))) := by
    simp only [Written.tokens, List.append_assoc, List.cons_append]
  refine ⟨?_, ?_⟩
  · rw [e, cellStart_written hsep w ⟨hw.1.2, hw.2.1.2, hw.2.2.1.2⟩]; rfl
  · intro t r et
    rw [e] at et
    have e2 : ∀ ts, copiesToks w.copies ++ (spanToks w.cols w.rows ++ (alignToks w.h w.v ++ (styleToks w.style ++ (sep :: ts)))) =
        (copiesToks w.copies ++ (spanToks w.cols w.rows ++ (alignToks w.h w.v ++ styleToks w.style))) ++ sep :: ts := by
      intro ts; simp only [List.append_assoc]
    rw [e2] at et
    rcases prefix_length w with h | ⟨u, r', h, _, h2, _⟩
    · rw [h] at et
      simp only [List.nil_append, List.cons.injEq] at et
      rw [← et.1]; simp [Tok.ws, specKinds hsep]
    · rw [h] at et
      simp only [List.cons_append, List.cons.injEq] at et
      rw [← et.1]
      simp only [Tok.ws, Bool.or_eq_false_iff, decide_eq_false_iff_not]
      constructor <;> (intro hk; simp [canStart, hk] at h2)

theorem psvCell_written {cfg : Config} {sep : Tok} (hsep : sepOk sep cfg.sep) {w : Written} (hw : w.ok cfg.sep) {rest : List Tok} (hr : Starts cfg.sep rest)
    (s : St) (hfit : s.counting = true ∨ w.cols ≤ s.numCols % 256) (col fuel : Nat) :
    psvCell cfg col (fuel + 1) s (w.tokens sep ++ rest) =
      ((some (finishCell cfg { s with counting := s.counting && !w.multiline sep } w.spec (w.value sep ++ w.kept) col).1),
        (finishCell cfg { s with counting := s.counting && !w.multiline sep } w.spec (w.value sep ++ w.kept) col).2, rest) := by
  have e : w.tokens sep ++ rest = copiesToks w.copies ++ (spanToks w.cols w.rows ++ (alignToks w.h w.v ++ (styleToks w.style ++
    (sep :: (w.lead ++ (w.text.flatMap (Piece.tokens sep) ++ (w.trail ++ rest))))))) := by
    simp only [Written.tokens, List.append_assoc, List.cons_append]
  have hne : (w.tokens sep ++ rest).isEmpty = false := by
    simp [Written.tokens]
  have hinv : (!s.counting && decide (s.numCols % 256 < w.spec.colSpan.getD 0)) = false := by
    rcases hfit with h | h
    · simp [h]
    · have : w.spec.colSpan.getD 0 ≤ w.cols := by unfold Written.spec; simp only; split <;> simp
      simp only [Bool.and_eq_false_iff, decide_eq_false_iff_not]
      right; omega
  have hc : collect cfg (size ((w.lead ++ (w.text.flatMap (Piece.tokens sep) ++ (w.trail ++ rest))).dropWhile (·.kind = .Whitespace)))
      ((w.lead ++ (w.text.flatMap (Piece.tokens sep) ++ (w.trail ++ rest))).dropWhile (·.kind = .Whitespace)) =
      (w.value sep ++ w.kept, w.multiline sep, rest) := by
    rw [dropWhile_lead _ _ (fun t ht => (hw.2.2.2.1 t ht).1)]
    by_cases ht : w.text = []
    · simp only [ht, List.flatMap_nil, List.nil_append]
      rw [dropWhile_starts hr]
      have hk : w.trail.dropWhile (·.kind = .Whitespace) = w.kept := by simp [Written.kept, ht]
      have hkw := kept_ws hw
      simp only [Written.multiline, Written.value, ht, List.map_nil, List.nil_append]
      rw [hk]
      exact collect_ws hr _ hkw _ (Nat.le_refl _)
    · have hk : w.kept = w.trail := by simp [Written.kept, ht]
      have hd : (w.text.flatMap (Piece.tokens sep) ++ (w.trail ++ rest)).dropWhile (·.kind = .Whitespace) = w.text.flatMap (Piece.tokens sep) ++ (w.trail ++ rest) := by
        cases hx : w.text with
        | nil => exact absurd hx ht
        | cons p ps =>
          cases p with
          | plain t =>
            have := hw.2.2.2.2.2.1 t (by rw [hx]; rfl)
            simp [Piece.tokens, this]
          | escaped => simp [Piece.tokens, backslash]
      rw [hd]
      simp only [Written.multiline, hk]
      exact collect_pieces hsep hr w.trail (hw.2.2.2.2.2.2.2.1 ht) hw.2.2.2.2.2.2.2.2 w.text hw.2.2.2.2.1 _ (Nat.le_refl _)
  rw [psvCell, if_neg (by simp [hne]), e, cellStart_written hsep w ⟨hw.1.2, hw.2.1.2, hw.2.2.1.2⟩]
  simp only [Option.getD_some, hc, hinv, Bool.false_eq_true, if_false]

end Verif.Tables

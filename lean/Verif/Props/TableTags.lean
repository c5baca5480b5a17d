import Verif.Spec.TableTags
import Verif.Props.OpenTag
import Verif.Lemmas.Columns
import Verif.Props.Images
/-!
C103: the tags of tables, columns and cells.
-/
namespace Verif.Props
open Verif Verif.OpenTag Verif.StartTag Verif.Spec.Escape Verif.Escape Verif.TableTags Verif.Columns Verif.Tables

/-! ### widths -/

private theorem digitChar_of {c : Char} (h : c.isDigit = true) : ∃ d, d < 10 ∧ c = d.digitChar := by
  have : ∀ n, n < 58 → 48 ≤ n → Char.ofNat n = (n - 48).digitChar := by decide
  simp only [Char.isDigit, Bool.and_eq_true, decide_eq_true_eq] at h
  have h1 : 48 ≤ c.toNat := h.1
  have h2 : c.toNat ≤ 57 := h.2
  refine ⟨c.toNat - 48, by omega, ?_⟩
  rw [← this c.toNat (by omega) h1, Char.ofNat_toNat]

/-- digits are zeros and the digits of their number -/
private theorem digits_zeros (ds : List Char) (h : ∀ c ∈ ds, c.isDigit = true) (h0 : ds ≠ []) :
    ∃ zeros, (∀ c ∈ zeros, c = '0') ∧ ds = zeros ++ Nat.toDigits 10 (Nat.ofDigitChars 10 ds 0) := by
  have key : ∀ r : List Char, (∀ c ∈ r, c.isDigit = true) → r ≠ [] →
      ∃ zeros, (∀ c ∈ zeros, c = '0') ∧ r.reverse = zeros ++ Nat.toDigits 10 (Nat.ofDigitChars 10 r.reverse 0) := by
    intro r
    induction r with
    | nil => intro _ h0; exact absurd rfl h0
    | cons c r ih =>
      intro h _
      obtain ⟨d, hd, rfl⟩ := digitChar_of (h c (by simp))
      have hv : Nat.ofDigitChars 10 ((d.digitChar :: r).reverse) 0 = 10 * Nat.ofDigitChars 10 r.reverse 0 + d := by
        rw [List.reverse_cons, Nat.ofDigitChars_append, Nat.ofDigitChars_cons_digitChar_of_lt_ten hd, Nat.ofDigitChars_nil]
      rw [hv]
      cases r with
      | nil => exact ⟨[], by simp, by simp [Nat.toDigits_of_lt_base hd]⟩
      | cons e r =>
        obtain ⟨zs, hz, he⟩ := ih (fun c hc => h c (by simp [hc])) (by simp)
        generalize hn : Nat.ofDigitChars 10 (e :: r).reverse 0 = n at *
        by_cases h0 : n = 0
        · subst h0
          rw [Nat.mul_zero, Nat.zero_add, Nat.toDigits_of_lt_base hd]
          refine ⟨(e :: r).reverse, ?_, by simp⟩
          rw [he]
          intro c hc
          rw [List.mem_append] at hc
          rcases hc with hc | hc
          · exact hz c hc
          · simpa [Nat.toDigits_zero] using hc
        · refine ⟨zs, hz, ?_⟩
          rw [← Nat.toDigits_append_toDigits (by omega) (by omega) hd, Nat.toDigits_of_lt_base hd, List.reverse_cons, he]
          simp
  have := key ds.reverse (by simpa using h) (by simpa using h0)
  simpa using this

private theorem number_zeros {zs : List Char} (h : ∀ c ∈ zs, c = '0') (n : Nat) : Nat.ofDigitChars 10 (zs ++ Nat.toDigits 10 n) 0 = n := by
  rw [List.eq_replicate_of_mem h, Nat.ofDigitChars_append, Nat.ofDigitChars_replicate_zero, Nat.mul_zero, Nat.ofDigitChars_ten_toDigits]

private theorem isDigit_toDigits {n : Nat} : ∀ c ∈ Nat.toDigits 10 n, c.isDigit = true :=
  fun _ hc => Nat.isDigit_of_mem_toDigits (by decide) (by decide) hc

private theorem parse_written {s : Str} {n : Nat} : parseU8 (stripPercent s) = some n ↔ WrittenPercent s n ∧ n ≤ 255 := by
  constructor
  · intro h
    have hs : ∃ percent, (percent = [] ∨ percent = ['%']) ∧ s = stripPercent s ++ percent := by
      unfold stripPercent
      split
      · rename_i hl
        refine ⟨['%'], .inr rfl, ?_⟩
        have h0 : s ≠ [] := by rintro rfl; cases hl
        rw [List.getLast?_eq_some_getLast h0, Option.some.injEq] at hl
        rw [← hl]; exact (List.dropLast_concat_getLast h0).symm
      · exact ⟨[], .inl rfl, by simp⟩
    obtain ⟨percent, hp, hs⟩ := hs
    generalize stripPercent s = r at *
    have hplus : ∃ plus ds, (plus = [] ∨ plus = ['+']) ∧ r = plus ++ ds ∧ ds.all Char.isDigit = true ∧ parseNumber 255 ds = some n := by
      unfold parseU8 at h
      split at h
      · simp only at h
        split at h
        · exact ⟨['+'], _, .inr rfl, rfl, by assumption, h⟩
        · cases h
      · simp only at h
        split at h
        · exact ⟨[], _, .inl rfl, rfl, by assumption, h⟩
        · cases h
    obtain ⟨plus, ds, hpl, rfl, hd, hn⟩ := hplus
    unfold parseNumber at hn
    simp only at hn
    split at hn
    · rename_i hc
      cases hn
      obtain ⟨zs, hz, he⟩ := digits_zeros ds (by simpa using hd) hc.1
      refine ⟨⟨plus, zs, percent, hpl, hz, hp, ?_⟩, hc.2⟩
      rw [hs, List.append_assoc plus zs, ← he]
    · cases hn
  · rintro ⟨⟨plus, zs, percent, hpl, hz, hp, rfl⟩, hn⟩
    have hdig : ∀ c ∈ zs ++ Nat.toDigits 10 n, c.isDigit = true := by
      intro c hc
      rcases List.mem_append.1 hc with hc | hc
      · rw [hz c hc]; decide
      · exact isDigit_toDigits c hc
    have hne : zs ++ Nat.toDigits 10 n ≠ [] := by simp [Nat.toDigits_ne_nil]
    have hnum := number_zeros hz n
    rw [List.append_assoc plus]
    generalize zs ++ Nat.toDigits 10 n = ds at *
    have hstrip : stripPercent (plus ++ ds ++ percent) = plus ++ ds := by
      unfold stripPercent
      rcases hp with rfl | rfl
      · rw [List.append_nil, if_neg]
        rw [List.getLast?_append, List.getLast?_eq_some_getLast hne, Option.some_or]
        intro h
        have := hdig _ (List.getLast_mem hne)
        rw [Option.some.inj h] at this
        exact absurd this (by decide)
      · rw [if_pos (by simp)]; simp
    rw [hstrip]
    have hparse : parseNumber 255 ds = some n := by unfold parseNumber; simp [hne, hnum, hn]
    unfold parseU8
    rcases hpl with rfl | rfl
    · obtain ⟨c, cs, rfl⟩ := List.exists_cons_of_ne_nil hne
      have hc : c ≠ '+' := by rintro rfl; exact absurd (hdig '+' (by simp)) (by decide)
      split
      · rename_i r he
        simp only [List.nil_append, List.cons.injEq] at he
        exact absurd he.1 hc
      · simp only [List.nil_append]
        rw [if_pos (by simpa using hdig), hparse]
    · simp only [List.cons_append, List.nil_append]
      rw [if_pos (by simpa using hdig), hparse]

private theorem explicit_eq {a : Attrs} {w : Option Nat} (h : IsWidth a w) : explicitWidth a = w := by
  unfold explicitWidth
  cases w with
  | some n =>
    obtain ⟨h1, h2, s, hs, hw⟩ := h
    rw [hs, Option.bind_some, parse_written.2 ⟨hw, h1⟩]
    simp [h2]
  | none =>
    cases hs : a.named "width" with
    | none => rfl
    | some s =>
      rw [Option.bind_some]
      cases hp : parseU8 (stripPercent s) with
      | none => rfl
      | some n =>
        obtain ⟨hw, hn⟩ := parse_written.1 hp
        rcases h s n hs hw with rfl | h2
        · rfl
        · omega

/-! ### the tag of a table -/

private theorem resolved_frame (pre : Str) (a : Attrs) (m : DocumentMeta) (t : Tag) :
    resolved "frame" (some "all".toList) "table-frame" pre a m t = t.cls (pre ++ frameOf a m) := by
  unfold resolved frameOf docText
  have e : "all".toList ≠ "topbot".toList := by decide
  generalize "all".toList = all at *
  generalize "topbot".toList = topbot at *
  generalize "ends".toList = ends
  cases a.named "frame" with
  | some v => by_cases h : v = topbot <;> simp [h]
  | none =>
    cases m.get "table-frame" with
    | none => simp [e]
    | some v =>
      cases v with
      | bool b => simp [e]
      | string s => by_cases h : s.toList = topbot <;> simp [h]

private theorem resolved_grid (pre : Str) (a : Attrs) (m : DocumentMeta) (t : Tag) :
    resolved "grid" (some "all".toList) "table-grid" pre a m t = t.cls (pre ++ gridOf a m) := by
  unfold resolved gridOf docText
  generalize "all".toList = all at *
  have e : ("grid" = "frame") = False := by simp
  simp only [e, and_false, if_false]
  cases a.named "grid" with
  | some v => rfl
  | none =>
    cases m.get "table-grid" with
    | none => rfl
    | some v => cases v <;> rfl

private theorem resolved_stripes (pre : Str) (a : Attrs) (m : DocumentMeta) (t : Tag) :
    resolved "stripes" none "table-stripes" pre a m t = ((stripesOf a m).map (pre ++ ·)).toList.foldl Tag.cls t := by
  unfold resolved stripesOf docText
  have e : ("stripes" = "frame") = False := by simp
  simp only [e, and_false, if_false]
  cases a.named "stripes" with
  | some v => rfl
  | none =>
    cases m.get "table-stripes" with
    | none => rfl
    | some v => cases v <;> rfl

/-- what the classes of a table are made of has no quotes and references in it -/
structure PlainTable (a : Attrs) (m : DocumentMeta) : Prop where
  block : ∀ k ∈ ["frame", "grid", "stripes", "float"], ∀ v, a.named k = some v → Plain v
  doc : ∀ k ∈ ["table-frame", "table-grid", "table-stripes"], ∀ s, m.get k = some (.string s) → Plain s.toList
  roles : ∀ r ∈ a.roles, Plain r
  id : ∀ i, a.id = some i → Fits i

private theorem plain_append {a b : Str} (ha : Plain a) (hb : Plain b) : Plain (a ++ b) := by
  simp only [Plain, List.mem_append, not_or] at *
  exact ⟨⟨ha.1, hb.1⟩, ha.2, hb.2⟩

private theorem chosen_plain {a : Attrs} {m : DocumentMeta} (h : PlainTable a m) {k d : String} (hk : k ∈ ["frame", "grid", "stripes", "float"])
    (hd : d ∈ ["table-frame", "table-grid", "table-stripes"]) {v : Str} (hv : (a.named k <|> docText m d) = some v) : Plain v := by
  cases hn : a.named k with
  | some w => rw [hn] at hv; cases hv; exact h.block k hk _ hn
  | none =>
    rw [hn] at hv
    have hv : docText m d = some v := hv
    unfold docText at hv
    split at hv
    · rename_i s hs
      cases hv
      exact h.doc d hd s hs
    · cases hv

private theorem frame_plain {a : Attrs} {m : DocumentMeta} (h : PlainTable a m) : Plain (frameOf a m) := by
  unfold frameOf
  simp only
  split
  · unfold Plain; decide
  · cases hc : (a.named "frame" <|> docText m "table-frame") with
    | none => unfold Plain; decide
    | some v => exact chosen_plain h (by simp) (by simp) hc

private theorem grid_plain {a : Attrs} {m : DocumentMeta} (h : PlainTable a m) : Plain (gridOf a m) := by
  unfold gridOf
  cases hc : (a.named "grid" <|> docText m "table-grid") with
  | none => unfold Plain; decide
  | some v => exact chosen_plain h (by simp) (by simp) hc

private theorem stripes_plain {a : Attrs} {m : DocumentMeta} (h : PlainTable a m) : ∀ r ∈ ((stripesOf a m).map ("stripes-".toList ++ ·)).toList, Plain r := by
  unfold stripesOf
  cases hc : (a.named "stripes" <|> docText m "table-stripes") with
  | none => simp
  | some v =>
    intro r hr
    simp only [Option.map_some, Option.mem_toList, Option.some.injEq] at hr
    rw [← hr]
    exact plain_append (by unfold Plain; decide) (chosen_plain h (by simp) (by simp) hc)

private theorem percent_chars (n : Nat) : ∀ c ∈ percent n, c ≠ '&' ∧ c ≠ '\'' := by
  intro c hc
  unfold percent at hc
  rw [List.mem_append, List.mem_append] at hc
  rcases hc with (hc | hc) | hc
  · exact (by decide : ∀ c ∈ "width: ".toList, c ≠ '&' ∧ c ≠ '\'') c hc
  · have := isDigit_toDigits c hc
    constructor <;> rintro rfl <;> exact absurd this (by decide)
  · exact (by decide : ∀ c ∈ "%;".toList, c ≠ '&' ∧ c ≠ '\'') c hc

private theorem seen_plain {s : Str} (h : '\'' ∉ s) : seen s = s := by
  unfold seen
  conv => rhs; rw [← List.map_id s]
  refine List.map_congr_left fun c hc => ?_
  unfold curl
  rw [if_neg (by rintro ⟨-, rfl⟩; exact h hc)]
  rfl

private theorem fits_plain' {s : Str} (h : '&' ∉ s) : Fits s := by
  rintro r ⟨t, rfl⟩ hr
  cases r with
  | nil => cases hr
  | cons c r =>
    cases hr
    simp at h

/-- **C103** (tables), partial: the tag of a table is read by a browser as the tag of a table with its id, and with classes for the frame, the lines
between cells and the stripes that the block asks for, or else the document, or else the ones every table has; with the width that the block
asks for, or else as wide as its place or its contents; and with the roles of the block.

Missing: quotes and ampersands in these, which are written as they are (`C103_quote_violated`), and widths that are not whole numbers
(`C103_fraction_violated`). -/
theorem C103_table_partial {a : Attrs} {m : DocumentMeta} (h : PlainTable a m) {width : Option Nat} (hw : IsWidth a width) :
    Says (tableTag a m) "table" (tableSays a m width) := by
  have e := C70_tags_partial "table" a true []
    (["tableblock".toList, "frame-".toList ++ frameOf a m, "grid-".toList ++ gridOf a m] ++ stretched a width ["fit-content".toList] ++
      (a.named "float").toList ++ ((stripesOf a m).map ("stripes-".toList ++ ·)).toList) (width.map percent).toList
    ⟨'t', _, rfl, by decide⟩ (by decide) (by simp) h.id ?_ ?_
  · have e1 : (width.map percent).toList.foldl Tag.style
        ((["tableblock".toList, "frame-".toList ++ frameOf a m, "grid-".toList ++ gridOf a m] ++ stretched a width ["fit-content".toList] ++
          (a.named "float").toList ++ ((stripesOf a m).map ("stripes-".toList ++ ·)).toList).foldl Tag.cls (Tag.new true "table".toList a)) =
        TableTags.finishTable a m ((Tag.new true "table".toList a).cls "tableblock".toList) := by
      unfold TableTags.finishTable
      simp only [resolved_frame, resolved_grid, explicit_eq hw, resolved_stripes, List.foldl_append, List.foldl_cons, List.foldl_nil]
      unfold stretched
      cases width <;> cases a.named "float" <;> by_cases ha : "autowidth" ∈ a.options <;> simp [ha] <;> rfl
    unfold tableTag
    rw [← e1]
    simp only [List.foldl_nil] at e
    refine cast (congrArg _ ?_) e
    unfold tableSays
    cases width with
    | none => simp [styleOf, opt]
    | some n =>
      have : seen (percent n) = percent n := seen_plain fun hm => (percent_chars n _ hm).2 rfl
      simp [styleOf, opt, this]
  · intro r hr
    simp only [List.mem_append, List.mem_cons, List.not_mem_nil, or_false] at hr
    rcases hr with ((((rfl | rfl | rfl) | hr) | hr) | hr) | hr
    · unfold Plain; decide
    · exact plain_append (by unfold Plain; decide) (frame_plain h)
    · exact plain_append (by unfold Plain; decide) (grid_plain h)
    · unfold stretched at hr
      split at hr
      · cases hr
      · split at hr <;> rw [List.mem_singleton.1 hr] <;> unfold Plain <;> decide
    · rw [Option.mem_toList] at hr
      exact h.block "float" (by simp) r hr
    · exact stripes_plain h r hr
    · exact h.roles r hr
  · intro s hs
    cases width with
    | none => cases hs
    | some n =>
      cases hs
      exact fits_plain' fun hm => (percent_chars n _ hm).1 rfl

/-- **C103** (semantic pages), partial: the same for the tag of a table in a semantic page.

Missing: as above. -/
theorem C103_semantic_partial {a : Attrs} {m : DocumentMeta} (h : PlainTable a m) {width : Option Nat} (hw : IsWidth a width) :
    Says (tableTag5 a m) "table" (tableSays5 a m width) := by
  have e := C70_tags_partial "table" {} true []
    (["frame-".toList ++ frameOf a m, "grid-".toList ++ gridOf a m] ++ stretched a width [] ++
      ((stripesOf a m).map ("stripes-".toList ++ ·)).toList)
    ((width.map percent).toList ++ ((a.named "float").map fun f => "float: ".toList ++ f ++ ";".toList).toList)
    ⟨'t', _, rfl, by decide⟩ (by decide) (by simp) (by simp) ?_ ?_
  · have e1 : ((width.map percent).toList ++ ((a.named "float").map fun f => "float: ".toList ++ f ++ ";".toList).toList).foldl Tag.style
        ((["frame-".toList ++ frameOf a m, "grid-".toList ++ gridOf a m] ++ stretched a width [] ++
          ((stripesOf a m).map ("stripes-".toList ++ ·)).toList).foldl Tag.cls (Tag.new true "table".toList {})) =
        finishTable5 a m (Tag.new true "table".toList {}) := by
      unfold finishTable5
      simp only [resolved_frame, resolved_grid, explicit_eq hw, resolved_stripes, List.foldl_append, List.foldl_cons, List.foldl_nil]
      unfold stretched
      cases width <;> cases a.named "float" <;> by_cases ha : "autowidth" ∈ a.options <;> simp [ha] <;> rfl
    unfold tableTag5
    rw [← e1]
    simp only [List.foldl_nil] at e
    refine cast (congrArg _ ?_) e
    have h1 : seen "float: ".toList = "float: ".toList := by decide
    have h2 : seen ";".toList = ";".toList := by decide
    have h4 : ∀ n, seen (percent n) = percent n := fun n => seen_plain fun hm => (percent_chars n _ hm).2 rfl
    have h5 : ∀ a b, seen (a ++ b) = seen a ++ seen b := fun a b => List.map_append
    have h6 : ∀ b, seen (';' :: ' ' :: b) = "; ".toList ++ seen b := fun b => by simp [seen, curl]
    unfold tableSays5
    generalize "float: ".toList = x at *
    generalize ";".toList = y at *
    generalize "; ".toList = z at *
    cases width <;> cases a.named "float" <;> simp [styleOf, opt, h1, h2, h4, h5, h6]
  · intro r hr
    simp only [List.mem_append, List.mem_cons, List.not_mem_nil, or_false] at hr
    rcases hr with ((rfl | rfl) | hr) | hr
    · exact plain_append (by unfold Plain; decide) (frame_plain h)
    · exact plain_append (by unfold Plain; decide) (grid_plain h)
    · unfold stretched at hr
      split at hr
      · cases hr
      · split at hr
        · cases hr
        · rw [List.mem_singleton.1 hr]; unfold Plain; decide
    · exact stripes_plain h r hr
  · have hp : ∀ n, '&' ∉ percent n := fun n hm => (percent_chars n _ hm).1 rfl
    have hx : '&' ∉ "float: ".toList := by decide
    have hy : '&' ∉ ";".toList := by decide
    have hz : '&' ∉ "; ".toList := by decide
    have hf : ∀ f, a.named "float" = some f → '&' ∉ f := fun f hf => (h.block "float" (by simp) f hf).2
    intro s hs
    refine fits_plain' ?_
    generalize "float: ".toList = x at *
    generalize ";".toList = y at *
    generalize he : a.named "float" = fl at *
    cases width with
    | none =>
      cases fl with
      | none => cases hs
      | some f =>
        have : s = x ++ f ++ y := (Option.some.inj hs).symm
        rw [this]
        simp only [List.mem_append, not_or]
        exact ⟨⟨hx, hf f rfl⟩, hy⟩
    | some n =>
      cases fl with
      | none => cases hs; exact hp n
      | some f =>
        have : s = percent n ++ "; ".toList ++ (x ++ f ++ y) := (Option.some.inj hs).symm
        rw [this]
        simp only [List.mem_append, not_or]
        exact ⟨⟨hp n, hz⟩, ⟨hx, hf f rfl⟩, hy⟩

/-! ### cells -/

private theorem cellName (p : Prop) [Decidable p] : (if p then "<th class=\"".toList else "<td class=\"".toList) =
    '<' :: ((if p then "th" else "td").toList ++ ' ' :: ("class".toList ++ "=\"".toList)) := by
  by_cases h : p
  · rw [if_pos h, if_pos h]; decide
  · rw [if_neg h, if_neg h]; decide

/-- **C103** (cells): the tag of a cell is read as a header cell, if it is in the header row or is a header, and else as another cell; it says how the
cell is aligned, by itself or by its column, and how many columns and rows it spans. -/
theorem C103_cell (text : List Tok) (style : Columns.Style) (spec : CellSpec) (col : Option ColSpec) (header semantic : Bool) :
    Says (openCell (Cell.new text style spec col) header semantic) (if header = true ∨ style = .header then "th" else "td")
      (cellSays spec col semantic) := by
  have hh : hWord (Cell.new text style spec col).hAlign = (across ((spec.hAlign <|> col.map (·.hAlign)).getD .left)).drop 7 := by
    unfold Cell.new
    cases spec.hAlign with
    | some x => cases x <;> rfl
    | none => cases col with
      | none => rfl
      | some c => simp only [Option.getD_none, Option.map_some]; cases c.hAlign <;> simp <;> rfl
  have hv : vWord (Cell.new text style spec col).vAlign = (along ((spec.vAlign <|> col.map (·.vAlign)).getD .top)).drop 7 := by
    unfold Cell.new
    cases spec.vAlign with
    | some x => cases x <;> rfl
    | none => cases col with
      | none => rfl
      | some c => simp only [Option.getD_none, Option.map_some]; cases c.vAlign <;> simp <;> rfl
  have hcs : (Cell.new text style spec col).colSpan = spec.colSpan.getD 1 := rfl
  have hrs : (Cell.new text style spec col).rowSpan = spec.rowSpan.getD 1 := rfl
  have hst : (Cell.new text style spec col).style = style := rfl
  unfold openCell cellSays
  rw [hh, hv, hcs, hrs, hst]
  generalize (spec.hAlign <|> col.map (·.hAlign)).getD .left = h
  generalize (spec.vAlign <|> col.map (·.vAlign)).getD .top = v
  generalize spec.colSpan.getD 1 = n
  generalize spec.rowSpan.getD 1 = k
  have hsp : ∀ n, ∀ s, span n = some s → '"' ∉ s ∧ '&' ∉ s := by
    intro n s hs
    unfold span at hs
    split at hs
    · cases hs
    · cases hs
      constructor <;> intro hm <;> exact absurd (isDigit_toDigits _ hm) (by decide)
  have hcls : ∃ cl, joined ((if semantic then ["tableblock".toList] else []) ++ [across h, along v]) = cl ∧ Plain cl ∧
      (if semantic then "tableblock ".toList else []) ++ "halign-".toList ++ (across h).drop 7 ++ " valign-".toList ++ (along v).drop 7 = cl ∧
      classes ((if semantic then ["tableblock".toList] else []) ++ [across h, along v]) = [("class", cl)] := by
    refine ⟨_, rfl, ?_, ?_, ?_⟩
    · unfold Plain
      cases semantic <;> cases h <;> cases v <;> decide
    · cases semantic <;> cases h <;> cases v <;> decide
    · unfold classes
      rw [if_neg (List.append_ne_nil_of_right_ne_nil _ (List.cons_ne_nil _ _))]
  obtain ⟨cl, -, hp, hw, hc⟩ := hcls
  rw [hc]
  have hnames : ∀ n ∈ ["class", "colspan", "rowspan"], n.toList ≠ [] ∧ ∀ c ∈ n.toList, nameChar c = true := by decide
  refine says_of (l := ("class".toList, cl) :: ((span n).map fun s => ("colspan".toList, s)).toList ++ ((span k).map fun s => ("rowspan".toList, s)).toList)
    ?_ ?_ ?_ ?_ ?_
  · have e : ∀ A B x y, (A ++ (if semantic then "tableblock ".toList else []) ++ "halign-".toList ++ (across h).drop 7 ++ " valign-".toList ++
        (along v).drop 7 ++ x ++ y ++ B : Str) = A ++ cl ++ x ++ y ++ B := by
      intro A B x y
      rw [← hw]
      simp only [List.append_assoc]
    rw [e]
    have e1 : (if 1 < n then "\" colspan=\"".toList ++ Nat.toDigits 10 n else []) = ((span n).map fun s => "\" colspan=\"".toList ++ s).getD [] := by
      unfold span
      by_cases hn : 1 < n
      · rw [if_pos hn, if_neg (by omega)]; rfl
      · rw [if_neg hn, if_pos (by omega)]; rfl
    have e2 : (if 1 < k then "\" rowspan=\"".toList ++ Nat.toDigits 10 k else []) = ((span k).map fun s => "\" rowspan=\"".toList ++ s).getD [] := by
      unfold span
      by_cases hn : 1 < k
      · rw [if_pos hn, if_neg (by omega)]; rfl
      · rw [if_neg hn, if_pos (by omega)]; rfl
    rw [e1, e2]
    have l0 : "\">".toList = ['"', '>'] := by decide
    have l1 : "\" colspan=\"".toList = '"' :: ' ' :: ("colspan".toList ++ "=\"".toList) := by decide
    have l2 : "\" rowspan=\"".toList = '"' :: ' ' :: ("rowspan".toList ++ "=\"".toList) := by decide
    have l5 := cellName (header = true ∨ style = .header)
    rw [l0, l1, l2, l5]
    generalize (if header = true ∨ style = .header then "th" else "td").toList = nm
    unfold written
    generalize "=\"".toList = eq
    generalize "colspan".toList = co
    generalize "rowspan".toList = ro
    generalize "class".toList = cla
    cases span n <;> cases span k <;> simp
  · split
    · exact ⟨'t', _, rfl, by decide⟩
    · exact ⟨'t', _, rfl, by decide⟩
  · split <;> decide
  · intro p hpm
    simp only [List.mem_cons, List.cons_append, List.mem_append, Option.mem_toList, Option.map_eq_some_iff] at hpm
    rcases hpm with rfl | ⟨s, hs, rfl⟩ | ⟨s, hs, rfl⟩
    · exact ⟨(hnames "class" (by simp)).1, (hnames "class" (by simp)).2, hp.1⟩
    · exact ⟨(hnames "colspan" (by simp)).1, (hnames "colspan" (by simp)).2, (hsp n s hs).1⟩
    · exact ⟨(hnames "rowspan" (by simp)).1, (hnames "rowspan" (by simp)).2, (hsp k s hs).1⟩
  · have hu : ∀ n, ∀ s, span n = some s → unescape s = s := fun n s hs => unescape_plain (hsp n s hs).2
    unfold opt
    cases hn : span n <;> cases hk : span k <;> simp [unescape_plain hp.2] <;>
      first | exact hu _ _ hn | exact hu _ _ hk | exact ⟨hu _ _ hn, hu _ _ hk⟩

/-! ### columns -/

private theorem share_facts (n d : Nat) (hd : d ≠ 0) : ∃ q : Rat, div? ((n : Rat) * 100) (d : Rat) = some q ∧ q.num.toNat * d = n * 100 * q.den ∧ q.den ≤ d ∧ 0 ≤ q.num := by
  have hq : (d : Rat) ≠ 0 := by exact_mod_cast hd
  refine ⟨_, by rw [div?, if_neg hq], ?_⟩
  have e : (n : Rat) * 100 / d = mkRat ((n * 100 : Nat) : Int) d := by
    rw [Rat.mkRat_eq_div]
    push_cast
    rfl
  rw [e, Rat.num_mkRat, Rat.den_mkRat, if_neg hd, if_neg hd, Int.natAbs_natCast]
  refine (fun (h : _ ∧ _) => ⟨h.1, h.2, Int.ediv_nonneg (by omega) (by omega)⟩) ?_
  generalize n * 100 = N
  have h1 : ((N : Int) / ((d.gcd N : Nat) : Int)).toNat = N / d.gcd N := by
    rw [← Int.natCast_ediv, Int.toNat_natCast]
  rw [h1]
  have hg : 0 < d.gcd N := Nat.gcd_pos_of_pos_left _ (by omega)
  obtain ⟨a, ha⟩ := Nat.gcd_dvd_left d N
  obtain ⟨b, hb⟩ := Nat.gcd_dvd_right d N
  generalize d.gcd N = g at *
  subst ha hb
  rw [Nat.mul_div_cancel_left _ hg, Nat.mul_div_cancel_left _ hg]
  refine ⟨by simp [Nat.mul_comm, Nat.mul_left_comm], Nat.le_mul_of_pos_left _ hg⟩

private theorem trim_frac {A F : Str} (hF : ∃ c ∈ F, c ≠ '0') :
    ∃ frac k, trimZeros (A ++ '.' :: F) = A ++ '.' :: frac ∧ frac ≠ [] ∧ F = frac ++ List.replicate k '0' := by
  have hne : F.reverse.dropWhile (· = '0') ≠ [] := by
    obtain ⟨c, hc, h0⟩ := hF
    intro h
    have h2 := List.takeWhile_append_dropWhile (p := fun c => decide (c = '0')) (l := F.reverse)
    rw [h, List.append_nil] at h2
    have := List.all_takeWhile (l := F.reverse) (p := fun c => decide (c = '0'))
    rw [h2, List.all_eq_true] at this
    have := this c (by simpa using hc)
    simp [h0] at this
  refine ⟨(F.reverse.dropWhile (· = '0')).reverse, (F.reverse.takeWhile (· = '0')).length, ?_, by simpa using hne, ?_⟩
  · unfold trimZeros
    rw [List.reverse_append, List.reverse_cons, List.append_assoc, List.dropWhile_append]
    rw [if_neg (by simpa using hne)]
    simp
  · have h1 : F.reverse.takeWhile (· = '0') = List.replicate (F.reverse.takeWhile (· = '0')).length '0' :=
      List.eq_replicate_of_mem fun c hc => by
        have := List.all_takeWhile (l := F.reverse) (p := fun c => decide (c = '0'))
        rw [List.all_eq_true] at this
        simpa using this c hc
    have h2 := List.takeWhile_append_dropWhile (p := fun c => decide (c = '0')) (l := F.reverse)
    have h3 := congrArg List.reverse h2
    rw [List.reverse_append, List.reverse_reverse] at h3
    conv => lhs; rw [← h3]
    congr 1
    conv => lhs; rw [h1]
    rw [List.reverse_replicate]

private theorem shareText_nearest {n d : Nat} {q : Rat} (hq : q.num.toNat * d = n * 100 * q.den) (hd : d ≠ 0) (hle : q.den ≤ d) (h : d ≤ 255) (hnn : 0 ≤ q.num) :
    ∃ v, Decimal (shareText (some q)) v ∧ Nearest v n d := by
  have hden : 0 < q.den := Nat.pos_of_ne_zero q.den_nz
  have hcop : Nat.Coprime q.num.toNat q.den := by
    have := q.reduced
    rwa [show q.num.natAbs = q.num.toNat by omega] at this
  simp only [shareText, fixed4]
  generalize q.num.toNat = num at *
  generalize q.den = den at *
  clear hnn q
  by_cases h1 : den = 1
  · subst h1
    refine ⟨10000 * num, .inl ⟨num, by simp, rfl⟩, ?_⟩
    unfold Nearest
    have : 10000 * num * d = n * 1000000 := by rw [Nat.mul_assoc, hq]; omega
    omega
  rw [if_neg h1]
  generalize hw : (20000 * num + den) / (2 * den) = w
  have hlo : 2 * den * w ≤ 20000 * num + den := by rw [← hw]; exact Nat.mul_div_le ..
  have hhi : 20000 * num + den < 2 * den * w + 2 * den := by
    rw [← hw]
    have := Nat.div_add_mod (20000 * num + den) (2 * den)
    have := Nat.mod_lt (20000 * num + den) (show 0 < 2 * den by omega)
    omega
  have hnear : Nearest w n d := by
    obtain ⟨g, hg⟩ : ∃ g, d = den * g := by
      have hdvd : den ∣ num * d := ⟨n * 100, by rw [hq, Nat.mul_comm]⟩
      exact (Nat.Coprime.dvd_of_dvd_mul_left hcop.symm hdvd)
    subst hg
    have hn : num * g = n * 100 := by
      have : den * (num * g) = den * (n * 100) := by
        rw [← Nat.mul_assoc, Nat.mul_comm den num, Nat.mul_assoc, hq, Nat.mul_comm]
      exact Nat.eq_of_mul_eq_mul_left hden this
    unfold Nearest
    have e1 : w * (den * g) = den * w * g := by rw [Nat.mul_comm w, Nat.mul_assoc, Nat.mul_assoc, Nat.mul_comm g]
    have h2 := Nat.mul_le_mul_right g hlo
    have h3 := Nat.mul_le_mul_right g (Nat.le_of_lt hhi)
    rw [Nat.add_mul, Nat.mul_assoc 20000, hn] at h2 h3
    rw [Nat.add_mul] at h3
    have e2 : 2 * den * w * g = 2 * (den * w * g) := by simp only [Nat.mul_assoc]
    have e3 : 2 * den * g = 2 * (den * g) := by simp only [Nat.mul_assoc]
    rw [e2] at h2 h3
    rw [e3] at h3
    rw [e1]
    omega
  have hfrac : w % 10000 ≠ 0 := by
    intro h0
    obtain ⟨m, rfl⟩ : ∃ m, w = 10000 * m := ⟨w / 10000, by omega⟩
    have e : 2 * den * (10000 * m) = 20000 * (den * m) := by
      rw [Nat.mul_assoc, Nat.mul_left_comm den 10000, ← Nat.mul_assoc]
    rw [e] at hlo hhi
    generalize hx : den * m = x at *
    have hnum : num = x := by omega
    have : den ∣ num := ⟨m, by rw [hnum, hx]⟩
    exact h1 (Nat.Coprime.eq_one_of_dvd hcop.symm this)
  have hlen : (Nat.toDigits 10 (w % 10000)).length ≤ 4 := (Nat.length_toDigits_le_iff (by decide) (by decide)).2 (by omega)
  have hval := number_zeros (zs := List.replicate (4 - (Nat.toDigits 10 (w % 10000)).length) '0') (fun c hc => (List.mem_replicate.1 hc).2) (w % 10000)
  have hflen : (List.replicate (4 - (Nat.toDigits 10 (w % 10000)).length) '0' ++ Nat.toDigits 10 (w % 10000)).length = 4 := by simp; omega
  have hdig : ∀ c ∈ List.replicate (4 - (Nat.toDigits 10 (w % 10000)).length) '0' ++ Nat.toDigits 10 (w % 10000), c.isDigit = true := by
    intro c hc
    rcases List.mem_append.1 hc with hc | hc
    · rw [(List.mem_replicate.1 hc).2]; decide
    · exact isDigit_toDigits c hc
  generalize List.replicate (4 - (Nat.toDigits 10 (w % 10000)).length) '0' ++ Nat.toDigits 10 (w % 10000) = F at *
  have hF : ∃ c ∈ F, c ≠ '0' := by
    false_or_by_contra
    rename_i hno
    have : F = List.replicate F.length '0' := List.eq_replicate_of_mem fun c hc => by
      false_or_by_contra
      rename_i h
      exact hno ⟨c, hc, h⟩
    rw [this, Nat.ofDigitChars_replicate_zero, Nat.mul_zero] at hval
    exact hfrac hval.symm
  obtain ⟨frac, k, ht, hfn, hFe⟩ := trim_frac (A := Nat.toDigits 10 (w / 10000)) hF
  refine ⟨w, .inr ⟨w / 10000, frac, k, ht, hfn, fun c hc => hdig c (by rw [hFe]; simp [hc]), ?_, ?_⟩, hnear⟩
  · rw [hFe] at hflen
    simpa using hflen
  · rw [hFe, Nat.ofDigitChars_append, Nat.ofDigitChars_replicate_zero, Nat.mul_comm] at hval
    rw [hval]
    omega

/-- the number that the widths are parts of: their sum, or a hundred if there is room for columns without a width -/
def wholeOf (ws : List Width) : Nat := if .auto ∈ ws ∧ widthSum ws ≤ 100 then 100 else widthSum ws

/-- **C103** (columns), partial: there is a tag for every column. That of a column with a width says which part of the table it is, in
percent to four places; that of a column without a width, or in a table with automatic widths, says nothing.

Missing: sums of widths above 255, where the program stops, and widths that are all zero (`C103_zero_violated`). -/
theorem C103_columns_partial (ws : List Width) (a : Attrs) (h : widthSum ws ≤ 255) (hz : 0 < widthSum ws ∨ .auto ∈ ws) :
    ∃ tags, colTags ws a = some tags ∧ tags.length = ws.length ∧ ∀ i (hi : i < ws.length), ∃ tag, tags[i]? = some tag ∧
      (("autowidth" ∈ a.options ∨ ws[i] = .auto) → Says tag "col" []) ∧
      ∀ n, "autowidth" ∉ a.options → (ws[i] = .proportional n ∨ ws[i] = .percentage n) →
        ∃ text v, Decimal text v ∧ Nearest v n (wholeOf ws) ∧ Says tag "col" [("style", "width: ".toList ++ text ++ "%;".toList)] := by
  have main : ∃ x d, distribute ws = some (ws.map (shareOf x d)) ∧ ((∃ w ∈ ws, w ≠ .auto) → d = wholeOf ws) := by
    unfold distribute wholeOf
    rw [divisor_eq ws none (by simpa using h)]
    simp only [Option.getD_none, Nat.zero_add, Option.bind_some, true_and]
    by_cases hall : ∀ w ∈ ws, w = .auto
    · exact ⟨_, _, rfl, fun ⟨w, hw, h0⟩ => absurd (hall w hw) h0⟩
    · rw [if_neg hall]
      refine ⟨_, _, rfl, fun _ => ?_⟩
      simp only [autoWidth]
      have hc : .auto ∈ ws ↔ 0 < numAuto ws := List.count_pos_iff.symm
      by_cases hk : numAuto ws = 0
      · rw [if_pos (.inr hk), if_neg (by rw [hc]; omega)]; rfl
      · by_cases hb : 100 < widthSum ws
        · rw [if_pos (.inl ⟨by omega, hb⟩), if_neg (by omega)]; rfl
        · rw [if_neg (by omega), if_pos (by rw [hc]; omega)]; rfl
  obtain ⟨x, d, hdist, hd⟩ := main
  refine ⟨_, by rw [colTags, hdist]; rfl, by simp, fun i hi => ⟨colTag (decide ("autowidth" ∈ a.options)) (shareOf x d ws[i]), by simp [hi], ?_, ?_⟩⟩
  · have hcol : Says "<col>".toList "col" [] := says_of (l := []) (by decide) ⟨'c', _, rfl, by decide⟩ (by decide) (by simp) rfl
    rintro (ha | ha)
    · unfold colTag
      split
      · rw [if_pos (by simpa using ha)]; exact hcol
      · exact hcol
    · rw [ha]; exact hcol
  · intro n ha hn
    have hshare : shareOf x d ws[i] = .percentage (div? ((n : Rat) * 100) (d : Rat)) := by rcases hn with hn | hn <;> rw [hn] <;> rfl
    have hd := hd ⟨ws[i], List.getElem_mem hi, by rcases hn with hn | hn <;> rw [hn] <;> simp⟩
    have hd0 : d ≠ 0 ∧ d ≤ 255 := by
      rw [hd]; unfold wholeOf
      split
      · omega
      · rename_i hc
        refine ⟨?_, h⟩
        rcases hz with hz | hz
        · omega
        · simp only [hz, true_and] at hc; omega
    obtain ⟨q, hq, h1, h2, h3⟩ := share_facts n d hd0.1
    obtain ⟨v, hv, hnear⟩ := shareText_nearest h1 hd0.1 h2 hd0.2 h3
    refine ⟨_, v, hv, hd ▸ hnear, ?_⟩
    rw [hshare, hq, colTag, if_neg (by simpa using ha)]
    have hchars : ∀ c ∈ shareText (some q), c ≠ '"' ∧ c ≠ '&' := by
      have hdig : ∀ c : Char, c.isDigit = true → c ≠ '"' ∧ c ≠ '&' := by
        intro c hc
        constructor <;> rintro rfl <;> exact absurd hc (by decide)
      intro c hc
      rcases hv with ⟨k, hk, -⟩ | ⟨k, frac, e, hk, -, hfr, -⟩
      · rw [hk] at hc; exact hdig c (isDigit_toDigits c hc)
      · rw [hk, List.mem_append, List.mem_cons] at hc
        rcases hc with hc | rfl | hc
        · exact hdig c (isDigit_toDigits c hc)
        · decide
        · exact hdig c (hfr c hc)
    generalize shareText (some q) = text at *
    have hw : ∀ x : Char, x = '"' ∨ x = '&' → x ∉ "width: ".toList ++ text ++ "%;".toList := by
      intro x hx hm
      rw [List.mem_append, List.mem_append] at hm
      rcases hm with (hm | hm) | hm
      · have := (by decide : ∀ c ∈ "width: ".toList, c ≠ '"' ∧ c ≠ '&') x hm
        rcases hx with rfl | rfl
        · exact this.1 rfl
        · exact this.2 rfl
      · have := hchars x hm
        rcases hx with rfl | rfl
        · exact this.1 rfl
        · exact this.2 rfl
      · have := (by decide : ∀ c ∈ "%;".toList, c ≠ '"' ∧ c ≠ '&') x hm
        rcases hx with rfl | rfl
        · exact this.1 rfl
        · exact this.2 rfl
    refine says_of (l := [("style".toList, "width: ".toList ++ text ++ "%;".toList)]) ?_ ⟨'c', _, rfl, by decide⟩ (by decide) ?_ ?_
    · have e1 : "<col style=\"width: ".toList = '<' :: ("col".toList ++ ' ' :: ("style".toList ++ "=\"".toList ++ "width: ".toList)) := by decide
      have e2 : "%;\">".toList = "%;".toList ++ ['"', '>'] := by decide
      rw [e1, e2]
      unfold written
      generalize "%;".toList = x1
      generalize "width: ".toList = x2
      generalize "=\"".toList = x3
      generalize "style".toList = x4
      generalize "col".toList = x5
      simp
    · intro p hp
      rw [List.mem_singleton.1 hp]
      exact ⟨(names "style" (by simp)).1, (names "style" (by simp)).2, hw _ (.inl rfl)⟩
    · exact congrArg (fun v => [("style", v)]) (unescape_plain (hw _ (.inr rfl)))

/-! ### cases, and what goes wrong -/

private def striped : Attrs :=
  { id := some "t1".toList, roles := ["wide".toList], options := ["header"],
    named := fun n => if n = "frame" then some "topbot".toList else if n = "width" then some "50%".toList else if n = "float" then some "left".toList else none }

private def striping : DocumentMeta := someMeta .modeSafe [("table-stripes", .string "even"), ("table-frame", .string "none")]

example : PlainTable striped striping ∧ IsWidth striped (some 50) ∧
    readTag (tableTag striped striping) =
      [("id", "t1"), ("class", "tableblock frame-ends grid-all left stripes-even wide"), ("style", "width: 50%;")] ∧
    readTag (tableTag5 striped striping) = [("class", "frame-ends grid-all stripes-even"), ("style", "width: 50%;; float: left;")] := by
  refine ⟨⟨?_, ?_, ?_, ?_⟩, ⟨by decide, by decide, "50%".toList, rfl, [], [], ['%'], .inl rfl, by simp, .inr rfl, by decide⟩, by decide +kernel, by decide +kernel⟩
  · intro k _ v hv
    simp only [striped] at hv
    split at hv
    · cases hv; unfold Plain; decide
    · split at hv
      · cases hv; unfold Plain; decide
      · split at hv
        · cases hv; unfold Plain; decide
        · cases hv
  · intro k hk s hs
    simp only [List.mem_cons, List.not_mem_nil, or_false] at hk
    rcases hk with rfl | rfl | rfl
    · rw [show striping.get "table-frame" = some (.string "none") by decide +kernel] at hs
      cases hs; unfold Plain; decide
    · rw [show striping.get "table-grid" = none by decide +kernel] at hs
      cases hs
    · rw [show striping.get "table-stripes" = some (.string "even") by decide +kernel] at hs
      cases hs; unfold Plain; decide
  · intro r hr; simp [striped] at hr; subst hr; unfold Plain; decide
  · intro i hi; cases hi; exact fits_plain' (by decide)

example : readTag (openCell (Cell.new [] .strong { colSpan := some 2, hAlign := some .right } (some { vAlign := .middle })) false true) =
    [("class", "tableblock halign-right valign-middle"), ("colspan", "2")] := by decide +kernel

example : widthSum [.proportional 1, .proportional 2] ≤ 255 ∧
    colTags [.proportional 1, .proportional 2] {} = some ["<col style=\"width: 33.3333%;\">".toList, "<col style=\"width: 66.6667%;\">".toList] :=
  ⟨by decide, by decide +kernel⟩

/-- **C103**, violated: a quote in the frame of a table ends the classes of its tag. -/
theorem C103_quote_violated :
    readTag (tableTag { named := fun n => if n = "frame" then some "a\" b".toList else none } (someMeta .modeSafe [])) =
      [("class", "tableblock frame-a"), ("b", ""), ("grid-all", ""), ("stretch\"", "")] := by decide +kernel

/-- **C103**, violated: a width with a fraction is not the width of the table. -/
theorem C103_fraction_violated :
    readTag (tableTag { named := fun n => if n = "width" then some "33.3%".toList else none } (someMeta .modeSafe [])) =
      [("class", "tableblock frame-all grid-all stretch")] := by decide +kernel

/-- **C103**, violated: columns without any width have a width that is not a number. -/
theorem C103_zero_violated : colTags ((parseColSpecs "0,0".toList).map (·.width)) {} =
    some ["<col style=\"width: NaN%;\">".toList, "<col style=\"width: NaN%;\">".toList] := by decide +kernel

end Verif.Props

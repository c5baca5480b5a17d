import Verif.Lemmas.ListMarks
import Verif.Props.OpenTag
/-! C100: the numbers, markers and check boxes of lists -/
namespace Verif.Props
open Verif.OpenTag Verif.ListMarks Verif.StartTag Verif.Spec.Escape

/-- **C100**: whatever lists are in each other, what they show is decided by the list itself and the number of lists around it that
are not lists of descriptions: the kind of numbers of a numbered list is the one asked for or, from the outermost list, arabic, letters,
roman, upper case letters, upper case roman; a check box can be changed if its own list is interactive; items of lists of callouts have
their own number or the one after that of the item before them in their list. Nothing else counts: no list before, no list inside. It
is so up to 255 lists in each other and numbers up to 254, with no list of callouts in another one. -/
theorem C100_lists_partial (icons : Images.IconMode) (ls : List Lst) (hr : listsRegular ls = true) (hh : listsHeight ls < 256)
    (hs : ∀ n, Out.callout n ∈ listsShow icons 0 ls → n < 255) :
    shown icons ls = some (listsShow icons 0 ls) := by
  obtain ⟨c, h, -⟩ := runLsts_eq icons 0 0 ls {} rfl (by omega) hr fun n hn => by have := hs n hn; omega
  simp [shown, h]

private def plain (m : Lists.Marker) (inner : List Lst := []) : Item := .mk m none inner
private def dots (inner : List Lst := []) : Lst := .mk .ordered {} [plain (.dot 1) inner]

/-- a list in a description in a list, after it a list with check boxes around another, and callouts -/
private def someLists : List Lst :=
  [.mk .ordered {} [plain (.digits 3) [.mk .description {} [plain (.colons 2) [dots, .mk .ordered { style := some "upperroman".toList } [plain (.dot 1)]]]],
      plain (.digits 4)],
    .mk .unordered { interactive := true } [.mk (.star 1) (some true) [.mk .unordered {} [.mk (.star 2) (some false) []]], .mk (.star 1) (some false) []],
    .mk .callout {} [plain (.callout none), plain (.callout (some 4)) [dots], plain (.callout none)]]

example : listsRegular someLists = true ∧ listsHeight someLists < 256 ∧ (∀ n, Out.callout n ∈ listsShow .font 0 someLists → n < 255) ∧
    listsShow .font 0 someLists =
      [.ol ⟨"arabic".toList, "1".toList, some (.num 3), false⟩, .item, .terms, .item,
        .ol ⟨"loweralpha".toList, "a".toList, none, false⟩, .item, .close,
        .ol ⟨"upperroman".toList, "I".toList, none, false⟩, .item, .close, .close, .item, .close,
        .ul none true, .box true true, .ul none true, .box false false, .close, .box true false, .close,
        .callouts, .callout 1, .callout 4, .ol ⟨"loweralpha".toList, "a".toList, none, false⟩, .item, .close, .callout 5, .close] := by
  have h : listsShow .font 0 someLists =
      [.ol ⟨"arabic".toList, "1".toList, some (.num 3), false⟩, .item, .terms, .item,
        .ol ⟨"loweralpha".toList, "a".toList, none, false⟩, .item, .close,
        .ol ⟨"upperroman".toList, "I".toList, none, false⟩, .item, .close, .close, .item, .close,
        .ul none true, .box true true, .ul none true, .box false false, .close, .box true false, .close,
        .callouts, .callout 1, .callout 4, .ol ⟨"loweralpha".toList, "a".toList, none, false⟩, .item, .close, .callout 5, .close] := by
    decide +kernel
  refine ⟨by decide +kernel, by decide +kernel, ?_, h⟩
  intro n hn
  rw [h] at hn
  simp at hn
  omega

/-- a list with `n` lists of one item in it -/
private def tower : Nat → List Lst → List Lst
  | 0, ls => ls
  | n + 1, ls => [.mk .unordered {} [plain (.star 1) (tower n ls)]]

/-- **C100**, what is missing, 1: a numbered list in 255 others, one of them of descriptions, is a crash. -/
theorem C100_deep_violated :
    shown .text [.mk .description {} [plain (.colons 2) (tower 254 [dots])]] = none ∧
      listsHeight [.mk .description {} [plain (.colons 2) (tower 254 [dots])]] = 256 := by
  decide +kernel

/-- **C100**, what is missing, 2: so is an item of a list of callouts with the number 255, which can be written. -/
theorem C100_callout_violated : shown .font [.mk .callout {} [plain (.callout (some 255))]] = none := by decide +kernel

/-- **C100**, what is missing, 3: a list of callouts in an item of another one changes the number of the next item of that. -/
theorem C100_inner_callouts_violated :
    shown .font [.mk .callout {} [plain (.callout none) [.mk .callout {} [plain (.callout none), plain (.callout none)]], plain (.callout none)]] =
      some [.callouts, .callout 1, .callouts, .callout 1, .callout 2, .close, .callout 3, .close] := by decide +kernel

/-- **C100**, what is missing, 4: a list in another that is asked to have decimal numbers has letters, for the browser. -/
theorem C100_decimal_violated :
    shown .text [.mk .ordered {} [plain (.dot 1) [.mk .ordered { style := some "decimal".toList } [plain (.dot 2)]]]] =
      some [.ol ⟨"arabic".toList, "1".toList, none, false⟩, .item, .ol ⟨"decimal".toList, "a".toList, none, false⟩, .item, .close, .close] := by
  decide +kernel

/-- **C100**, what is missing, 5: with icons as text, items of lists of callouts do not have the numbers they are written with. -/
theorem C100_text_violated :
    shown .text [.mk .callout {} [plain (.callout (some 4)), plain (.callout (some 7))]] = some [.callouts, .item, .item, .close] := by
  decide +kernel

/-- **C100**: the numbers browsers show. With items that are written with numbers one after another, these are the ones written. -/
theorem C100_written_numbers (d : Nat) (a : ListAttrs) (items : List Item) (first : Nat) (ha : a.start = none) (hr : a.reversed = false)
    (hi : ∀ k (h : k < items.length), items[k].marker = .digits (first + k)) :
    labels (olOf d a items) items.length = (List.range items.length).map fun (k : Nat) => ((first + k : Nat) : Int) := by
  match items with
  | [] => rfl
  | .mk m c inner :: is =>
    have h0 : m = .digits first := hi 0 (by simp)
    subst h0
    unfold labels olOf
    simp only [ha, hr, written1, Option.bind_some, Bool.false_eq_true, if_false]
    by_cases h1 : first = 1
    · subst h1; simp
    · simp [h1]

example : labels (olOf 1 {} [plain (.digits 7), plain (.digits 8), plain (.digits 9)]) 3 = [7, 8, 9] := by decide +kernel

/-- **C100**: and written with numbers that go down, in a reversed list. -/
theorem C100_reversed_numbers (d : Nat) (a : ListAttrs) (items : List Item) (first : Nat) (ha : a.start = none) (hr : a.reversed = true)
    (h1 : first ≠ 1) (hi : ∀ k (h : k < items.length), k ≤ first ∧ items[k].marker = .digits (first - k)) :
    labels (olOf d a items) items.length = (List.range items.length).map fun (k : Nat) => ((first - k : Nat) : Int) := by
  match items with
  | [] => rfl
  | .mk m c inner :: is =>
    have h0 : m = .digits first := (hi 0 (by simp)).2
    subst h0
    unfold labels olOf
    simp only [ha, hr, written1, Option.bind_some, if_true, if_neg h1]
    refine List.map_congr_left fun k hk => ?_
    have := (hi k (List.mem_range.1 hk)).1
    omega

example : labels (olOf 1 { reversed := true } [plain (.digits 3), plain (.digits 2), plain (.digits 1)]) 3 = [3, 2, 1] := by decide +kernel

/-- **C100**, what is missing, 6: a reversed list that is written with a one and a zero. -/
theorem C100_reversed_one_violated : labels (olOf 1 { reversed := true } [plain (.digits 1), plain (.digits 0)]) 2 = [2, 1] := by
  decide +kernel

/-- **C100**: items that are written with dots are numbered from one, or down to one. -/
theorem C100_dot_numbers (d : Nat) (a : ListAttrs) (items : List Item) (ha : a.start = none)
    (hi : ∀ i ∈ items, ∃ n, i.marker = .dot n) :
    labels (olOf d a items) items.length =
      (List.range items.length).map fun (k : Nat) => (if a.reversed then items.length - k else 1 + k : Int) := by
  match items with
  | [] => rfl
  | .mk m c inner :: is =>
    obtain ⟨n, h0⟩ := hi (.mk m c inner) (by simp)
    have h0 : m = .dot n := h0
    subst h0
    unfold labels olOf
    simp only [ha, written1, Option.bind_none]
    refine List.map_congr_left fun k _ => ?_
    cases a.reversed <;> simp

/-- what the element should say -/
private def olAttrs (o : Ol) : List (Str × Str) :=
  [("class".toList, o.cls)] ++ (if o.type ≠ "1".toList then [("type".toList, o.type)] else []) ++
    (match o.start with
      | some (.text s) => [("start".toList, s)]
      | some (.num n) => [("start".toList, numStr n)]
      | none => [])

private theorem attr_names : ∀ n ∈ ["class", "type", "start"], n.toList ≠ [] ∧ ∀ c ∈ n.toList, nameChar c = true := by decide

private theorem repr_quote (n : Nat) : '"' ∉ numStr n := by
  intro h
  unfold numStr at h
  rw [Nat.repr, String.toList_ofList] at h
  have := Nat.isDigit_of_mem_toDigits (by omega) (by omega) h
  simp at this

private theorem olTag_written (o : Ol) :
    olTag o = '<' :: "ol".toList ++ (olAttrs o).flatMap written ++ (if o.reversed then " reversed>".toList else ['>']) := by
  have e1 : "<ol class=\"".toList = '<' :: "ol".toList ++ (" ".toList ++ "class".toList ++ "=\"".toList) := by decide
  have e2 : " type=\"".toList = " ".toList ++ "type".toList ++ "=\"".toList := by decide
  have e3 : " start=\"".toList = " ".toList ++ "start".toList ++ "=\"".toList := by decide
  have hw : ∀ p, written p = " ".toList ++ p.1 ++ "=\"".toList ++ p.2 ++ ['"'] := by
    intro p; simp [written]
  unfold olTag olAttrs
  rw [e1, e2, e3]
  generalize " ".toList = x1 at *
  generalize "=\"".toList = x2 at *
  generalize "class".toList = x3 at *
  generalize "type".toList = x4 at *
  generalize "start".toList = x5 at *
  generalize "ol".toList = x6 at *
  generalize " reversed>".toList = x7 at *
  generalize "1".toList = x8 at *
  by_cases ht : o.type = x8
  · rcases hs : o.start with _ | ⟨s | n⟩ <;> simp [ht, hw]
  · rcases hs : o.start with _ | ⟨s | n⟩ <;> simp [ht, hw]

private theorem read_open {l : List (Str × Str)} (hl : l ≠ [])
    (h : ∀ p ∈ l, p.1 ≠ [] ∧ (∀ c ∈ p.1, nameChar c = true) ∧ '"' ∉ p.2) : ∀ r : Reader, (r.state = .tagName ∨ r.state = .afterQuoted) →
    r.read (l.flatMap written) = { r with state := .afterQuoted, attrs := r.attrs ++ l } := by
  induction l with
  | nil => exact absurd rfl hl
  | cons p l ih =>
    intro r hr
    obtain ⟨h1, h2, h3⟩ := h p (by simp)
    rw [List.flatMap_cons, read_append, read_attr hr h1 h2 h3]
    by_cases hl : l = []
    · subst hl; simp [Reader.read]
    · rw [ih hl (fun q hq => h q (by simp [hq])) _ (.inr rfl)]
      simp

private theorem read_reversed (r : Reader) (hr : r.state = .afterQuoted) :
    r.read " reversed>".toList = { r with state := .data, attrs := r.attrs ++ [("reversed".toList, [])], closed := r.closed + 1 } := by
  have e : " reversed>".toList = ' ' :: 'r' :: ("eversed".toList ++ ['>']) := by decide
  have e' : "reversed".toList = 'r' :: "eversed".toList := by decide
  have hn : ∀ c ∈ "eversed".toList, nameChar c = true := by decide
  rw [e, e', read_cons, read_cons, read_append]
  generalize "eversed".toList = x at *
  have s1 : (r.step ' ').step 'r' = { r with state := .attrName, attrs := r.attrs ++ [(['r'], [])] } := by
    have h1 : r.step ' ' = { r with state := .beforeName } := by simp [Reader.step, hr, Reader.before, space]
    rw [h1]
    simp [Reader.step, Reader.before, space, Reader.start]
  rw [s1, read_name x _ r.attrs ['r'] hn rfl rfl]
  simp [Reader.read, Reader.step, space, Reader.close]

private theorem plain_kinds (d : Nat) (asked : Option Str) :
    (∀ c ∈ (kindOf d asked).1, c ≠ '"' ∧ c ≠ '&') ∧ ∀ c ∈ (kindOf d asked).2, c ≠ '"' ∧ c ≠ '&' := by
  have hk : ∀ k ∈ kinds, (∀ c ∈ k.1, c ≠ '"' ∧ c ≠ '&') ∧ ∀ c ∈ k.2, c ≠ '"' ∧ c ≠ '&' := by decide +kernel
  have hl : ∀ s ∈ letterless, ∀ c ∈ s, c ≠ '"' ∧ c ≠ '&' := by decide +kernel
  have hlen : kinds.length = 5 := by decide +kernel
  have hat : kindAt d ∈ kinds := by
    unfold kindAt
    rw [List.getD_eq_getElem?_getD, List.getElem?_eq_getElem (by rw [hlen]; omega), Option.getD_some]
    exact List.getElem_mem _
  unfold kindOf
  split
  · rename_i k hf
    obtain ⟨s, -, hf⟩ := Option.bind_eq_some_iff.1 hf
    exact hk k (List.mem_of_find?_eq_some hf)
  · refine ⟨?_, (hk _ hat).2⟩
    cases hf : asked.filter (letterless.contains ·) with
    | none => exact (hk _ hat).1
    | some s =>
      have := (Option.filter_eq_some_iff.1 hf).2
      exact hl s (List.contains_iff_mem.1 this)

/-- **C100**: the element of a numbered list says its kind, as a class and for the browser, its first number and whether it is
reversed, and nothing else. It is so if the number asked for in the attributes has no quote in it. -/
theorem C100_element_partial (d : Nat) (a : ListAttrs) (items : List Item) (hq : ∀ s ∈ a.start, '"' ∉ s) :
    Says (olTag (olOf d a items)) "ol"
      ([("class", (kindOf d a.style).1)] ++ (if (kindOf d a.style).2 ≠ "1".toList then [("type", (kindOf d a.style).2)] else []) ++
        opt "start" (match a.start with
          | some s => some (unescape s)
          | none => (written1 items).bind fun n => if n = 1 then none else some (Nat.repr n).toList) ++
        if a.reversed then [("reversed", [])] else []) := by
  obtain ⟨hp1, hp2⟩ := plain_kinds d a.style
  have hall : ∀ p ∈ olAttrs (olOf d a items), p.1 ≠ [] ∧ (∀ c ∈ p.1, nameChar c = true) ∧ '"' ∉ p.2 := by
    intro p hp
    unfold olAttrs at hp
    rw [List.mem_append, List.mem_append, List.mem_singleton] at hp
    rcases hp with (hp | hp) | hp
    · rw [hp]
      exact ⟨(attr_names "class" (by simp)).1, (attr_names "class" (by simp)).2, fun h => (hp1 _ h).1 rfl⟩
    · split at hp
      · rw [List.mem_singleton.1 hp]
        exact ⟨(attr_names "type" (by simp)).1, (attr_names "type" (by simp)).2, fun h => (hp2 _ h).1 rfl⟩
      · cases hp
    · split at hp
      · rename_i s hs
        rw [List.mem_singleton.1 hp]
        refine ⟨(attr_names "start" (by simp)).1, (attr_names "start" (by simp)).2, hq s ?_⟩
        unfold olOf at hs
        dsimp only at hs
        cases ha : a.start with
        | some t => simp [ha] at hs; simp [hs]
        | none =>
          simp only [ha] at hs
          obtain ⟨n, -, hs⟩ := Option.bind_eq_some_iff.1 hs
          split at hs <;> simp at hs
      · rename_i n hs
        rw [List.mem_singleton.1 hp]
        exact ⟨(attr_names "start" (by simp)).1, (attr_names "start" (by simp)).2, repr_quote n⟩
      · cases hp
  have hne : olAttrs (olOf d a items) ≠ [] := by simp [olAttrs]
  refine ⟨olAttrs (olOf d a items) ++ (if a.reversed then [("reversed".toList, [])] else []), ?_, ?_⟩
  · unfold IsTag
    rw [olTag_written, read_append, read_append]
    have h1 : Reader.read {} ('<' :: "ol".toList) = { state := .tagName, name := "ol".toList } := by decide
    rw [h1, read_open hne hall _ (.inl rfl)]
    have hr : (olOf d a items).reversed = a.reversed := rfl
    rw [hr]
    cases a.reversed with
    | true => rw [if_pos rfl, if_pos rfl, read_reversed _ rfl]; simp
    | false => simp [Reader.read, Reader.step, Reader.before, Reader.close, space]
  · have e1 : String.ofList "class".toList = "class" := by decide
    have e2 : String.ofList "type".toList = "type" := by decide
    have e3 : String.ofList "start".toList = "start" := by decide
    have e4 : String.ofList "reversed".toList = "reversed" := by decide
    have u1 := unescape_plain (a := (kindOf d a.style).1) (fun h => (hp1 _ h).2 rfl)
    have u2 := unescape_plain (a := (kindOf d a.style).2) (fun h => (hp2 _ h).2 rfl)
    have u3 : ∀ n : Nat, unescape (Nat.toDigits 10 n) = Nat.toDigits 10 n := fun n => unescape_plain (by
      intro h
      have := Nat.isDigit_of_mem_toDigits (by omega) (by omega) h
      simp at this)
    have hs : (olOf d a items).start = match a.start with
      | some s => some (Start.text s)
      | none => (written1 items).bind fun n => if n = 1 then none else some (Start.num n) := rfl
    have hc : (olOf d a items).cls = (kindOf d a.style).1 := rfl
    have ht : (olOf d a items).type = (kindOf d a.style).2 := rfl
    unfold olAttrs
    rw [hs, hc, ht]
    generalize "class".toList = x1 at *
    generalize "type".toList = x2 at *
    generalize "start".toList = x3 at *
    generalize "reversed".toList = x4 at *
    generalize "1".toList = x5 at *
    simp only [List.map_append, List.map_cons, List.map_nil, e1, u1]
    have a1 : (if (kindOf d a.style).2 ≠ x5 then [(x2, (kindOf d a.style).2)] else []).map (fun (p : Str × Str) => (String.ofList p.1, unescape p.2)) =
        if (kindOf d a.style).2 ≠ x5 then [("type", (kindOf d a.style).2)] else [] := by
      split <;> simp [e2, u2]
    have a2 : (if a.reversed = true then [(x4, [])] else []).map (fun (p : Str × Str) => (String.ofList p.1, unescape p.2)) =
        if a.reversed = true then [("reversed", [])] else [] := by
      split <;> simp [e4, unescape]
    rw [a1, a2]
    congr 2
    cases ha : a.start with
    | some s => simp [opt, e3]
    | none =>
      cases hw : written1 items with
      | none => simp [opt]
      | some n =>
        by_cases hn : n = 1
        · simp [opt, hn]
        · simp [opt, hn, e3, numStr, u3]

example : Says (olTag (olOf 2 { reversed := true } [plain (.digits 12)])) "ol"
    [("class", "loweralpha".toList), ("type", "a".toList), ("start", "12".toList), ("reversed", [])] := by
  have := C100_element_partial 2 { reversed := true } [plain (.digits 12)] nofun
  have e1 : kindOf 2 none = ("loweralpha".toList, "a".toList) := by decide +kernel
  have e2 : ("a".toList : Str) ≠ "1".toList := by decide +kernel
  simp only [e1, if_pos e2, written1, plain, Option.bind_some] at this
  exact this

/-- **C100**, what is missing, 7: a quote in the number asked for makes other attributes. -/
theorem C100_start_violated :
    Says (olTag (olOf 1 { start := some "4\" onclick=\"x".toList } [plain (.dot 1)])) "ol"
      [("class", "arabic".toList), ("start", "4".toList), ("onclick", "x".toList)] := by
  refine ⟨[("class".toList, "arabic".toList), ("start".toList, "4".toList), ("onclick".toList, "x".toList)], ?_, ?_⟩
  · unfold IsTag
    decide +kernel
  · decide +kernel

end Verif.Props

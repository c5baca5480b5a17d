import Verif.Model.Wasm
import Verif.Spec.Json
/-!
# What `convert` gives to programs in browsers

**C104**: what the function gives is JSON, and it says whether the conversion was successful and what the page is, or what the errors are.
-/
namespace Verif.Props
open Verif.Wasm Verif.Spec.Json Verif.OpenTag

private theorem quoted_cons (c : Char) (s : Str) :
    quoted (c :: s) = (if c = '"' then ['\\', '"'] else if c = '\n' then ['\\', 'n'] else [c]) ++ quoted s := by
  unfold quoted replace
  rw [List.flatMap_cons, List.flatMap_append]
  congr 1
  by_cases h : c = '"'
  · subst h; decide
  · by_cases h2 : c = '\n'
    · subst h2; decide
    · simp [h, h2]

private theorem readString_cons {c : Char} (r : Str) (h1 : c ≠ '"') (h2 : c ≠ '\\') :
    readString (c :: r) = if c.toNat < 32 then none else (readString r).map fun x => (c :: x.1, x.2) := by
  rw [readString.eq_def]
  split
  · rename_i h; cases h
  · rename_i h; exact absurd (List.cons.inj h).1 h1
  · rename_i h; exact absurd (List.cons.inj h).1 h2
  · rename_i h; exact absurd (List.cons.inj h).1 h2
  · rename_i h
    obtain ⟨rfl, rfl⟩ := List.cons.inj h
    simp [h2]

private theorem readString_quoted (rest : Str) : ∀ s : Str, Simple s → readString (quoted s ++ '"' :: rest) = some (s, rest)
  | [], _ => by
    rfl
  | c :: s, h => by
    have ih := readString_quoted rest s fun x hx => h x (List.mem_cons_of_mem _ hx)
    obtain ⟨h1, h2⟩ := h c List.mem_cons_self
    rw [quoted_cons]
    by_cases hq : c = '"'
    · subst hq
      simp only [if_true, List.cons_append, List.nil_append]
      rw [readString.eq_def]
      simp [escape, ih]
    · rw [if_neg hq]
      by_cases hn : c = '\n'
      · subst hn
        simp only [if_true, List.cons_append, List.nil_append]
        rw [readString.eq_def]
        simp [escape, ih]
      · rw [if_neg hn, List.singleton_append, List.cons_append, readString_cons _ hq h1, ih]
        have : ¬ c.toNat < 32 := by
          rcases h2 with h2 | h2
          · omega
          · exact absurd h2 hn
        simp [this]

private theorem members_last {n : Nat} {a b r : Str} {k : Str} {v : Json} (h1 : readString a = some (k, ':' :: b))
    (h2 : readValue n b = some (v, '}' :: r)) : readMembers (n + 1) ('"' :: a) = some ([(k, v)], r) := by
  unfold readMembers
  have e : skip ('"' :: a) = '"' :: a := rfl
  simp only [e, h1]
  have e2 : skip (':' :: b) = ':' :: b := rfl
  simp only [e2, h2]
  have e3 : skip ('}' :: r) = '}' :: r := rfl
  simp only [e3]

private theorem members_more {n : Nat} {a b r r' : Str} {k : Str} {v : Json} {l : List (Str × Json)} (h1 : readString a = some (k, ':' :: b))
    (h2 : readValue n b = some (v, ',' :: r)) (h3 : readMembers n r = some (l, r')) :
    readMembers (n + 1) ('"' :: a) = some ((k, v) :: l, r') := by
  unfold readMembers
  have e : skip ('"' :: a) = '"' :: a := rfl
  simp only [e, h1]
  have e2 : skip (':' :: b) = ':' :: b := rfl
  simp only [e2, h2]
  have e3 : skip (',' :: r) = ',' :: r := rfl
  simp only [e3, h3, Option.map_some]

private theorem value_string {n : Nat} {a r t : Str} (h : readString a = some (t, r)) : readValue (n + 1) ('"' :: a) = some (.string t, r) := by
  unfold readValue
  have e : skip ('"' :: a) = '"' :: a := rfl
  simp only [e, h, Option.map_some]

private theorem value_object {n : Nat} {a r : Str} {l : List (Str × Json)} (h : readMembers n ('"' :: a) = some (l, r)) :
    readValue (n + 1) ('{' :: '"' :: a) = some (.object l, r) := by
  unfold readValue
  have e : skip ('{' :: '"' :: a) = '{' :: '"' :: a := rfl
  have e2 : skip ('"' :: a) = '"' :: a := rfl
  simp only [e, e2, h, Option.map_some]
  rfl

private theorem value_array {n : Nat} {a r t : Str} (h : readString a = some (t, ']' :: r)) :
    readValue (n + 3) ('[' :: '"' :: a) = some (.array [.string t], r) := by
  unfold readValue
  have e : skip ('[' :: '"' :: a) = '[' :: '"' :: a := rfl
  have e2 : skip ('"' :: a) = '"' :: a := rfl
  have e3 : skip (']' :: r) = ']' :: r := rfl
  have hi : readItems (n + 2) ('"' :: a) = some ([.string t], r) := by
    unfold readItems
    simp only [value_string h, e3]
  simp only [e, e2, hi, Option.map_some]
  rfl

private theorem parse_of {s : Str} {v : Json} (h : ∀ n, readValue (n + 6) s = some (v, [])) (hl : 2 ≤ s.length) : parse s = some v := by
  unfold parse
  obtain ⟨n, hn⟩ : ∃ n, 2 * s.length + 2 = n + 6 := ⟨2 * s.length - 4, by omega⟩
  rw [hn, h n]
  rfl

private theorem chars_success (x : Str) : readString ("success\":".toList ++ x) = some ("success".toList, ':' :: x) := rfl

private theorem chars_html (x : Str) : readString ("html\":".toList ++ x) = some ("html".toList, ':' :: x) := rfl

private theorem chars_errors (x : Str) : readString ("errors\":".toList ++ x) = some ("errors".toList, ':' :: x) := rfl

private theorem page_eq (s : Str) : convert (.ok s) =
    '{' :: '"' :: ("success\":".toList ++ 't' :: 'r' :: 'u' :: 'e' :: ',' :: '"' :: ("html\":".toList ++ '"' :: (quoted s ++ '"' :: ['}']))) := by
  have e : "{\"success\":true,\"html\":\"".toList =
    '{' :: '"' :: ("success\":".toList ++ 't' :: 'r' :: 'u' :: 'e' :: ',' :: '"' :: ("html\":".toList ++ ['"'])) := by decide
  have e2 : "\"}".toList = ['"', '}'] := by decide
  show _ ++ _ ++ _ = _
  rw [e, e2]
  generalize "success\":".toList = a
  generalize "html\":".toList = b
  simp

private theorem errors_eq (ds : List Str) : convert (.error ds) =
    '{' :: '"' :: ("success\":".toList ++ 'f' :: 'a' :: 'l' :: 's' :: 'e' :: ',' :: '"' :: ("errors\":".toList ++ '[' :: '"' ::
      (quoted (("\",\"".toList).intercalate ds) ++ '"' :: [']', '}']))) := by
  have e : "{\"success\":false,\"errors\":[\"".toList =
    '{' :: '"' :: ("success\":".toList ++ 'f' :: 'a' :: 'l' :: 's' :: 'e' :: ',' :: '"' :: ("errors\":".toList ++ ['[', '"'])) := by decide
  have e2 : "\"]}".toList = ['"', ']', '}'] := by decide
  show _ ++ _ ++ _ = _
  rw [e, e2]
  generalize "success\":".toList = a
  generalize "errors\":".toList = b
  generalize quoted (("\",\"".toList).intercalate ds) = c
  simp

/-- **C104**: what is given for a page is JSON that says that the conversion was successful and what the page is.

Missing: pages with backslashes (`C104_backslash_violated`) and with other characters below the space than ends of lines (`C104_control_violated`). -/
theorem C104_page_partial {html : Str} (h : Simple html) :
    parse (convert (.ok html)) = some (.object [("success".toList, .bool true), ("html".toList, .string html)]) := by
  refine parse_of (fun n => ?_) (by rw [page_eq]; simp only [List.length_cons]; omega)
  rw [page_eq]
  exact value_object (members_more (chars_success _) rfl (members_last (chars_html _) (value_string (readString_quoted _ html h))))

/-- **C104**: for one diagnostic it is JSON that says that the conversion was not successful and what the diagnostic is.

Missing: as above, and several diagnostics (`C104_several_violated`). -/
theorem C104_error_partial {d : Str} (h : Simple d) :
    parse (convert (.error [d])) = some (.object [("success".toList, .bool false), ("errors".toList, .array [.string d])]) := by
  refine parse_of (fun n => ?_) (by rw [errors_eq]; simp only [List.length_cons]; omega)
  rw [errors_eq]
  have e : ("\",\"".toList).intercalate [d] = d := by simp [List.intercalate]
  rw [e]
  exact value_object (members_more (chars_success _) rfl (members_last (chars_errors _) (value_array (readString_quoted _ d h))))

private theorem simple_join : ∀ {ds : List Str}, (∀ d ∈ ds, Simple d) → Simple (("\",\"".toList).intercalate ds)
  | [], _ => by intro c hc; simp [List.intercalate] at hc
  | [d], h => by
    have e : ("\",\"".toList).intercalate [d] = d := by simp [List.intercalate]
    rw [e]
    exact h d List.mem_cons_self
  | d :: d' :: ds, h => by
    have ih := simple_join (ds := d' :: ds) fun x hx => h x (List.mem_cons_of_mem _ hx)
    have e : ("\",\"".toList).intercalate (d :: d' :: ds) = d ++ "\",\"".toList ++ ("\",\"".toList).intercalate (d' :: ds) := by
      simp [List.intercalate]
    rw [e]
    intro c hc
    rcases List.mem_append.1 hc with hc | hc
    · rcases List.mem_append.1 hc with hc | hc
      · exact h d List.mem_cons_self c hc
      · have key : ∀ c ∈ "\",\"".toList, c ≠ '\\' ∧ (32 ≤ c.toNat ∨ c = '\n') := by decide
        exact key c hc
    · exact ih c hc

/-- **C104**, violated: however many diagnostics there are, one error is given: the texts between them are read as a part of it. -/
theorem C104_several_violated {ds : List Str} (h : ∀ d ∈ ds, Simple d) :
    parse (convert (.error ds)) =
      some (.object [("success".toList, .bool false), ("errors".toList, .array [.string (("\",\"".toList).intercalate ds)])]) := by
  refine parse_of (fun n => ?_) (by rw [errors_eq]; simp only [List.length_cons]; omega)
  rw [errors_eq]
  exact value_object (members_more (chars_success _) rfl (members_last (chars_errors _) (value_array (readString_quoted _ _ (simple_join h)))))

private theorem readString_control {c : Char} (hc : c.toNat < 32) (hn : c ≠ '\n') (post rest : Str) :
    ∀ s : Str, Simple s → readString (quoted (s ++ c :: post) ++ rest) = none
  | [], _ => by
    have hq : c ≠ '"' := by rintro rfl; exact absurd hc (by decide)
    have hb : c ≠ '\\' := by rintro rfl; exact absurd hc (by decide)
    rw [List.nil_append, quoted_cons, if_neg hq, if_neg hn, List.singleton_append, List.cons_append, readString_cons _ hq hb, if_pos hc]
  | d :: s, h => by
    have ih := readString_control hc hn post rest s fun x hx => h x (List.mem_cons_of_mem _ hx)
    obtain ⟨h1, h2⟩ := h d List.mem_cons_self
    rw [List.cons_append, quoted_cons]
    by_cases hq : d = '"'
    · subst hq
      simp only [if_true, List.cons_append, List.nil_append]
      rw [readString.eq_def]
      simp [escape, ih]
    · rw [if_neg hq]
      by_cases hn : d = '\n'
      · subst hn
        simp only [if_true, List.cons_append, List.nil_append]
        rw [readString.eq_def]
        simp [escape, ih]
      · rw [if_neg hn, List.singleton_append, List.cons_append, readString_cons _ hq h1, ih]
        simp

private theorem parse_none {s : Str} (hr : readString (quoted s ++ '"' :: ['}']) = none) : parse (convert (.ok s)) = none := by
  have key : ∀ n, readValue (n + 6) (convert (.ok s)) = none := by
    intro n
    rw [page_eq]
    generalize quoted s ++ '"' :: ['}'] = x at hr
    have e : ∀ y, skip ('"' :: y) = '"' :: y := fun _ => rfl
    have h1 : readValue (n + 3) ('"' :: x) = none := by
      unfold readValue
      simp only [e, hr, Option.map_none]
    have h2 : readMembers (n + 4) ('"' :: ("html\":".toList ++ '"' :: x)) = none := by
      unfold readMembers
      have e2 : skip (':' :: '"' :: x) = ':' :: '"' :: x := rfl
      simp only [e, chars_html, e2, h1]
    generalize '"' :: ("html\":".toList ++ '"' :: x) = y at h2
    have h3 : readMembers (n + 5) ('"' :: ("success\":".toList ++ 't' :: 'r' :: 'u' :: 'e' :: ',' :: y)) = none := by
      unfold readMembers
      have e2 : skip (':' :: 't' :: 'r' :: 'u' :: 'e' :: ',' :: y) = ':' :: 't' :: 'r' :: 'u' :: 'e' :: ',' :: y := rfl
      have e3 : readValue (n + 4) ('t' :: 'r' :: 'u' :: 'e' :: ',' :: y) = some (.bool true, ',' :: y) := rfl
      have e4 : skip (',' :: y) = ',' :: y := rfl
      simp only [e, chars_success, e2, e3, e4, h2, Option.map_none]
    generalize "success\":".toList ++ 't' :: 'r' :: 'u' :: 'e' :: ',' :: y = z at h3
    unfold readValue
    have e2 : skip ('{' :: '"' :: z) = '{' :: '"' :: z := rfl
    simp only [e, e2, h3, Option.map_none]
    rfl
  unfold parse
  have hl : 2 ≤ (convert (.ok s)).length := by rw [page_eq]; simp only [List.length_cons]; omega
  obtain ⟨n, hn⟩ : ∃ n, 2 * (convert (.ok s)).length + 2 = n + 6 := ⟨2 * (convert (.ok s)).length - 4, by omega⟩
  rw [hn, key n]

private theorem parse_some {s t : Str} (hr : readString (quoted s ++ '"' :: ['}']) = some (t, ['}'])) :
    parse (convert (.ok s)) = some (.object [("success".toList, .bool true), ("html".toList, .string t)]) := by
  refine parse_of (fun n => ?_) (by rw [page_eq]; simp only [List.length_cons]; omega)
  rw [page_eq]
  exact value_object (members_more (chars_success _) rfl (members_last (chars_html _) (value_string hr)))

/-- **C104**, violated: no page with a tab, or another character below the space that is not the end of a line, is given as JSON. -/
theorem C104_control_violated {c : Char} (hc : c.toNat < 32) (hn : c ≠ '\n') {before : Str} (h : Simple before) (after : Str) :
    parse (convert (.ok (before ++ c :: after))) = none :=
  parse_none (readString_control hc hn after _ before h)

/-- **C104**, violated: a backslash is read as the beginning of an escape: the page is another one, or there is no JSON. -/
theorem C104_backslash_violated :
    (parse (convert (.ok "<p>C:\\new</p>".toList)) =
      some (.object [("success".toList, .bool true), ("html".toList, .string "<p>C:\new</p>".toList)])) ∧
    parse (convert (.ok "<p>C:\\dir</p>".toList)) = none := by
  refine ⟨parse_some ?_, parse_none ?_⟩ <;> decide

/-! ### the hypotheses are met -/

example : parse (convert (.ok "<p class=\"lead\">a\nb</p>".toList)) =
    some (.object [("success".toList, .bool true), ("html".toList, .string "<p class=\"lead\">a\nb</p>".toList)]) :=
  C104_page_partial (by decide)

example : convert (.ok "<p class=\"lead\">a\nb</p>".toList) =
    "{\"success\":true,\"html\":\"<p class=\\\"lead\\\">a\\nb</p>\"}".toList := by decide

example : parse (convert (.error ["no \"x\"\n".toList])) =
    some (.object [("success".toList, .bool false), ("errors".toList, .array [.string "no \"x\"\n".toList])]) :=
  C104_error_partial (by decide)

example : parse (convert (.error ["a".toList, "b".toList])) =
    some (.object [("success".toList, .bool false), ("errors".toList, .array [.string "a\",\"b".toList])]) :=
  C104_several_violated (by decide)

example : parse (convert (.ok "<pre>a\tb</pre>".toList)) = none :=
  C104_control_violated (c := '\t') (by decide) (by decide) (before := "<pre>a".toList) (by decide) "b</pre>".toList

/-- what `readString` reads -/
example : readString "\\u0041\\/\" ]".toList = some ("A/".toList, " ]".toList) := by decide

end Verif.Props

import Verif.Lemmas.AttrEntry
import Verif.Lemmas.Meta
import Verif.Model.Directives
/-!
C79: attribute entries set and unset attributes as written. C80: references in the value of an entry in the header are replaced.
C81: the `author` entry names the author.
-/
namespace Verif.Props
open Verif AttrEntry AttrEntry.Spec
open Verif.Regex (Classes space)

/-- C79: an attribute entry over any number of lines, `:name: value`, `:!name:` or `:name!:`, is read as written: the name in lower
case, the lines of the value joined, without the white space around it. Partial: no line holds a carriage return; no references to
other attributes (C80) when it is in the header; the value does not start with `pass:` (for this see below); there are at least four
characters (`:a:` at the end of a file is no entry). -/
theorem C79_entries_partial (cl : Classes) (inHeader : Bool) (look : List Char → Option AttrValue) (f : Form) (name : List Char) (lines : List (List Char)) (rest v : List Char)
    (hname : Name name) (hne : lines ≠ [])
    (hlines : ∀ l ∈ lines, '\n' ∉ l ∧ '\r' ∉ l) (hlast : ∀ l ∈ lines.getLast?, l.getLast? ≠ some '\\')
    (hrest : rest = [] ∨ rest.head? = some '\n') (hlen : 4 ≤ (opening f name ++ written lines ++ rest).length)
    (hv : Trimmed (joined [] lines) v) (hpass : ¬ "pass:".toList <+: v) (hbrace : inHeader = false ∨ ∀ l ∈ lines, '{' ∉ l) :
    ∃ e, attrDef cl inHeader look (opening f name ++ written lines ++ rest) = .ok e ∧
      e.name = name.map Char.toLower ∧ e.value = meaning f v ∧ e.rest = rest ∧ (e.report = true ↔ f ≠ .set ∧ v ≠ []) := by
  refine ⟨_, attrDef_written cl inHeader look f hname hne hlines hlast hrest hlen hv, rfl, ?_, rfl, by simp⟩
  have : ((joined [] lines).contains '{' && inHeader) = false := by
    rcases hbrace with h | h
    · simp [h]
    · have := mem_joined '{' (by decide) [] lines (by simp) h
      simp [this]
  rw [meaning]
  split
  · rfl
  · rw [this, if_neg (by simp), special_plain cl hpass]

/-- C79: an entry on one line is read as written, also when the lines end with a carriage return and a line feed. -/
theorem C79_one_line_partial (cl : Classes) (inHeader : Bool) (look : List Char → Option AttrValue) (f : Form) (name line rest v : List Char)
    (hname : Name name) (hline : '\n' ∉ line ∧ '\r' ∉ line) (hlast : line.getLast? ≠ some '\\')
    (hrest : rest = [] ∨ rest.head? = some '\n' ∨ ['\r', '\n'] <+: rest) (hlen : 4 ≤ (opening f name ++ line ++ rest).length)
    (hv : Trimmed line v) (hpass : ¬ "pass:".toList <+: v) (hbrace : inHeader = false ∨ '{' ∉ line) :
    ∃ e, attrDef cl inHeader look (opening f name ++ line ++ rest) = .ok e ∧
      e.name = name.map Char.toLower ∧ e.value = meaning f v ∧ e.rest = rest ∧ (e.report = true ↔ f ≠ .set ∧ v ≠ []) := by
  have hr : atEol rest = true := by
    rcases hrest with rfl | h | ⟨t, rfl⟩
    · rfl
    · cases rest with
      | nil => simp at h
      | cons c r => simp at h; simp [atEol, h]
    · simp [atEol]
  refine ⟨_, attrDef_line cl inHeader look f hname hline hlast hr hlen hv, rfl, ?_, rfl, by simp⟩
  have : (line.contains '{' && inHeader) = false := by
    rcases hbrace with h | h <;> simp [h]
  rw [meaning]
  split
  · rfl
  · rw [this, if_neg (by simp), special_plain cl hpass]

/-- the hypotheses are met: `:Foo: a + \`, `b \`, `c` -/
example : ∃ e, attrDef AuthorLine.ascii true (fun _ => none) ":Foo: a + \\\nb \\\nc\nnext".toList = .ok e ∧
    e.name = "foo".toList ∧ e.value = .string "a +\nb c" ∧ e.rest = "\nnext".toList := by
  obtain ⟨e, h1, h2, h3, h4, _⟩ := C79_entries_partial AuthorLine.ascii true (fun _ => none) .set "Foo".toList [" a +".toList, "b".toList, "c".toList] "\nnext".toList "a +\nb c".toList
    (by decide) (by decide) (by decide) (by decide) (by decide) (by decide) ⟨[' '], [], by decide, by decide, by decide, by decide, by decide⟩ (by decide) (by decide)
  exact ⟨e, h1, h2.trans (by decide), h3.trans (by decide), h4⟩
/-- `:!foo:` -/
example : ∃ e, attrDef AuthorLine.ascii false (fun _ => none) ":!foo:\r\n".toList = .ok e ∧ e.name = "foo".toList ∧ e.value = .bool false ∧ e.report = false := by
  obtain ⟨e, h1, h2, h3, _, h5⟩ := C79_one_line_partial AuthorLine.ascii false (fun _ => none) .unsetBefore "foo".toList [] "\r\n".toList []
    (by decide) (by decide) (by decide) (by decide) (by decide) ⟨[], [], by decide, by decide, by decide, by decide, by decide⟩ (by decide) (by decide)
  refine ⟨e, h1, h2.trans (by decide), h3.trans (by decide), ?_⟩
  rw [Bool.eq_false_iff]; intro h; exact (h5.1 h).2 rfl

/-- C79: only text in the form of an entry is read as one: a colon, a name (with a `!` before or behind it to unset the attribute) and
a colon; the entry ends at the end of a line. -/
theorem C79_only_entries (cl : Classes) (inHeader : Bool) (look : List Char → Option AttrValue) (l : List Char) (e : Entry) (hl : l.head? = some ':') (h : attrDef cl inHeader look l = .ok e) :
    ∃ a name b value, (a = [] ∨ a = ['!']) ∧ (b = [] ∨ b = ['!']) ∧ Name name ∧ e.name = name.map Char.toLower ∧
      l = ':' :: a ++ name ++ b ++ ':' :: value ++ e.rest ∧ (e.rest = [] ∨ e.rest.head? = some '\n' ∨ ['\r', '\n'] <+: e.rest) ∧
      (∀ x, e.value = .bool x → (x = true ↔ a = [] ∧ b = [])) ∧
      (e.report = true ↔ (a ≠ [] ∨ b ≠ []) ∧ ∃ s, e.value = .string s) := by
  unfold attrDef at h
  split at h
  · cases h
  · rename_i h3
    simp only at h
    obtain ⟨t, rfl⟩ : ∃ t, l = ':' :: t := by
      cases l with
      | nil => simp at hl
      | cons c t => simp at hl; exact ⟨t, by rw [hl]⟩
    obtain ⟨a, u, ha, htu, hdrop, hb1⟩ : ∃ a u, (a = [] ∨ a = ['!']) ∧ t = a ++ u ∧
        (if (':' :: t)[1]? = some '!' then (':' :: t).drop 2 else (':' :: t).drop 1) = u ∧ (decide ((':' :: t)[1]? = some '!') = decide (a ≠ [])) := by
      by_cases hb : (':' :: t)[1]? = some '!'
      · refine ⟨['!'], t.drop 1, .inr rfl, ?_, by rw [if_pos hb]; simp, by simp [hb]⟩
        cases t with
        | nil => simp at hb
        | cons c t => simp at hb; simp [hb]
      · exact ⟨[], t, .inl rfl, rfl, by rw [if_neg hb]; simp, by simpa using hb⟩
    rw [hdrop] at h
    cases u with
    | nil => cases h
    | cons c u =>
      simp only at h
      split at h
      · rename_i hc
        cases hs : scanName u with
        | none => rw [hs] at h; cases h
        | some x =>
          obtain ⟨n, tr, after⟩ := x
          rw [hs] at h
          simp only at h
          obtain ⟨hu, hn⟩ := scanName_some hs
          obtain ⟨j1, _⟩ := joinLines_some (after.length + 1) ((':' :: t).take ((':' :: t).length - after.length) ++ (takeLine after).1) (takeLine after).2
            (by have := takeLine_len after; omega) (takeLine_eol after)
          cases hj : joinLines (after.length + 1) ((':' :: t).take ((':' :: t).length - after.length) ++ (takeLine after).1) (takeLine after).2 with
          | none => rw [hj] at h; cases h
          | some y =>
            obtain ⟨s, r⟩ := y
            rw [hj] at h
            simp only [Res.ok.injEq] at h
            obtain ⟨hsuf, heol⟩ := j1 _ hj
            simp only at hsuf heol
            obtain ⟨p, hp⟩ : r <:+ after := hsuf.trans ⟨_, takeLine_eq after⟩
            have hv : ∀ {V : List Char} {q : Bool} {w : String}, (∀ x, (if V = [] then AttrValue.bool q else .string w) = .bool x → x = q) ∧
                ((∃ s, (if V = [] then AttrValue.bool q else .string w) = .string s) ↔ V ≠ []) := by
              intro V q w
              by_cases hV : V = []
              · simp [hV]
              · simp [hV]
            subst h
            refine ⟨a, c :: n, if tr then ['!'] else [], p, ha, by cases tr <;> simp, ?_, rfl, ?_, ?_, ?_, ?_⟩
            · refine ⟨by simp, ?_, ?_⟩
              · simp only [List.head?_cons, ne_eq, Option.some.injEq]
                rintro rfl
                revert hc; decide
              · intro d hd
                rcases List.mem_cons.1 hd with rfl | hd
                · simp only [nameStart, Bool.or_eq_true, decide_eq_true_eq] at hc
                  rcases hc with h | h
                  · exact .inl h
                  · exact .inr (.inl h)
                · have := hn d hd
                  simp only [nameChar, Bool.or_eq_true, decide_eq_true_eq] at this
                  rcases this with (h | h) | h
                  · exact .inl h
                  · exact .inr (.inl h)
                  · exact .inr (.inr h)
            · rw [htu, hu, ← hp]; simp
            · cases r with
              | nil => exact .inl rfl
              | cons d r =>
                simp only [atEol, Bool.or_eq_true, decide_eq_true_eq, Bool.and_eq_true] at heol
                rcases heol with rfl | ⟨rfl, h⟩
                · exact .inr (.inl rfl)
                · refine .inr (.inr ?_)
                  cases r with
                  | nil => simp at h
                  | cons x r => simp at h; subst h; exact ⟨r, rfl⟩
            · intro x hx
              have := hv.1 x hx
              rw [this, hb1]
              cases tr <;> rcases ha with rfl | rfl <;> simp
            · rw [hv.2, hb1]
              cases tr <;> rcases ha with rfl | rfl <;> simp
      · cases h

example : ∃ e, attrDef AuthorLine.ascii false (fun _ => none) ":foo: x\n".toList = .ok e := ⟨_, rfl⟩

/-- C79: reading an entry does not panic when the source ends with a line end. Partial: otherwise it can
(`C79_continued_at_the_end_violated`). -/
theorem C79_no_panic_partial (cl : Classes) (inHeader : Bool) (look : List Char → Option AttrValue) (l : List Char) (h : l.getLast? = some '\n') : attrDef cl inHeader look l ≠ .panic := by
  unfold attrDef
  split
  · simp
  · rename_i h3
    simp only [List.getElem?_eq_none_iff, Nat.not_le] at h3
    simp only
    obtain ⟨k, hk, hk2⟩ : ∃ k, (if l[1]? = some '!' then l.drop 2 else l.drop 1) = l.drop k ∧ k < l.length := by
      split
      · exact ⟨2, rfl, by omega⟩
      · exact ⟨1, rfl, by omega⟩
    rw [hk, List.drop_eq_getElem_cons hk2]
    simp only
    split
    · cases hs : scanName (l.drop (k + 1)) with
      | none => simp
      | some x =>
        obtain ⟨n, tr, after⟩ := x
        simp only
        have hsuf : after <:+ l := by
          obtain ⟨hu, _⟩ := scanName_some hs
          refine .trans ?_ (List.drop_suffix (k + 1) l)
          exact ⟨n ++ (if tr then ['!'] else []) ++ [':'], by rw [hu]; simp⟩
        obtain ⟨_, j2⟩ := joinLines_some (after.length + 1) (l.take (l.length - after.length) ++ (takeLine after).1) (takeLine after).2
          (by have := takeLine_len after; omega) (takeLine_eol after)
        have hsuf2 : (takeLine after).2 <:+ after := ⟨_, takeLine_eq after⟩
        cases hj : joinLines (after.length + 1) (l.take (l.length - after.length) ++ (takeLine after).1) (takeLine after).2 with
        | some y => simp
        | none =>
          refine absurd hj (j2 ?_ ?_)
          · intro hb h0
            have e := takeLine_eq after
            rw [h0, List.append_nil] at e
            by_cases hne : after = []
            · subst hne
              rw [show (takeLine []).1 = [] from rfl, List.append_nil] at hb
              simp only [List.length_nil, Nat.sub_zero, List.take_length] at hb
              have := last_of_suffix hb (by decide)
              rw [h] at this
              revert this; decide
            · have h2 := last_of_suffix hsuf hne
              rw [h, ← e] at h2
              exact takeLine_no after (List.mem_of_getLast? h2)
          · intro hne
            rw [last_of_suffix (hsuf2.trans hsuf) hne]; exact h
    · simp

example : ":a: b \\\n".toList.getLast? = some '\n' := by decide

/-- C79 fails at the end of a file: when the last line says that the entry goes on, the program panics. -/
theorem C79_continued_at_the_end_violated : attrDef AuthorLine.ascii true (fun _ => none) ":a: b \\".toList = .panic := by decide +kernel

/-- C79 fails for the shortest entry at the end of a file: `:a:` is no entry there. -/
theorem C79_shortest_violated : attrDef AuthorLine.ascii true (fun _ => none) ":a:".toList = .no ∧
    ∃ e, attrDef AuthorLine.ascii true (fun _ => none) ":a:\n".toList = .ok e ∧ e.name = ['a'] ∧ e.value = .bool true := by
  exact ⟨by decide +kernel, _, rfl, by decide, by decide⟩

/-- C79 fails for files with Windows line ends: a value that goes on on the next line is cut there, and the next line is left in the
text. -/
theorem C79_crlf_violated : ∃ e, attrDef AuthorLine.ascii true (fun _ => none) ":a: b \\\r\nc\r\n".toList = .ok e ∧ e.value = .string "b" ∧ e.rest = "\nc\r\n".toList := by
  refine ⟨⟨['a'], .string "b", false, false, "\nc\r\n".toList⟩, by decide +kernel, rfl, rfl⟩

/-- C79 fails without a space: `:foo:bar` at the start of a line is text (as `:foo:` would be in `:foo:bar:baz`), but it sets an
attribute and is dropped from the document. -/
theorem C79_no_space_violated : ∃ e, attrDef AuthorLine.ascii false (fun _ => none) ":foo:bar\n".toList = .ok e ∧ e.name = "foo".toList ∧ e.value = .string "bar" := by
  refine ⟨⟨"foo".toList, .string "bar", false, false, ['\n']⟩, by decide +kernel, rfl, rfl⟩

/-- C79 fails for unsetting an attribute with a value: the attribute is set to the value, although this is reported as impossible. -/
theorem C79_unset_with_value_violated : ∃ e, attrDef AuthorLine.ascii true (fun _ => none) ":!foo: bar\n".toList = .ok e ∧ e.report = true ∧ e.value = .string "bar" := by
  refine ⟨⟨"foo".toList, .string "bar", false, true, ['\n']⟩, by decide +kernel, rfl, rfl⟩

/-- C79 fails in a conditional on one line: the embedded text is `:bar: baz`, but the entry is read from the source file at that
place, and there the closing bracket follows. -/
theorem C79_conditional_violated :
    Directives.matchIfdef "ifdef::foo[:bar: baz]".toList = some ("foo".toList, ":bar: baz".toList) ∧
    ∃ e, attrDef AuthorLine.ascii true (fun _ => none) ("ifdef::foo[:bar: baz]\n".toList.drop 11) = .ok e ∧ e.value = .string "baz]" := by
  refine ⟨by decide +kernel, ⟨"bar".toList, .string "baz]", false, false, ['\n']⟩, by decide +kernel, rfl⟩

/-- C79: a character reference in a pass macro is the value (`:tip-caption: pass:[&#128161;]`). Partial: for decimal references in
ASCII digits. -/
theorem C79_entity_partial (cl : Classes) (ds : List Char) (hne : ds ≠ []) (hd : ∀ c ∈ ds, c.isDigit = true) :
    special cl ("pass:[&#".toList ++ ds ++ ";]".toList) = "&#".toList ++ ds ++ [';'] := by
  have hdig : ∀ c ∈ ds, cl.digit c = true := by
    intro c hc
    have h := hd c hc
    have ha : c.toNat < 128 := by
      simp only [Char.isDigit, Bool.and_eq_true, decide_eq_true_eq] at h
      have : c.val ≤ 57 := h.2
      have := UInt32.le_iff_toNat_le.1 this
      simp at this; omega
    rw [cl.digit_ascii c ha]; exact h
  have hp : lit "pass:" <+: "pass:[&#".toList ++ ds ++ ";]".toList := ⟨"[&#".toList ++ ds ++ ";]".toList, rfl⟩
  rw [special, if_pos hp]
  have hsemi : ∀ c ∈ (";]".toList).head?, cl.digit c = false := by
    intro c hc
    have : c = ';' := by simpa using hc.symm
    subst this
    rw [cl.digit_ascii _ (by decide)]; decide
  have hrun : ∃ s, Regex.run cl.word (entityRe cl.digit) ⟨[], "pass:[&#".toList ++ ds ++ ";]".toList, []⟩ some = some s ∧ s.caps.lookup 1 = some ("&#".toList ++ ds ++ [';']) := by
    refine ⟨⟨"];".toList ++ ds.reverse ++ "#&[:ssap".toList, [], [(1, "&#".toList ++ ds ++ [';']), (2, '#' :: ds)]⟩, ?_, rfl⟩
    have e : "pass:[&#".toList ++ ds ++ ";]".toList = lit "pass:[" ++ ('&' :: '#' :: (ds ++ ";]".toList)) := by simp [lit]
    rw [e, entityRe, Regex.run, Regex.run, if_pos rfl, Regex.run, run_word, Regex.run, Regex.run, Regex.run, Regex.run_ch, Regex.run, Regex.run, Regex.run, Regex.run]
    have hgo : ∀ k r, k ⟨ds.reverse ++ '#' :: '&' :: ((lit "pass:[").reverse ++ []), ";]".toList, []⟩ = some r →
        Regex.run cl.word (.ch '#') ⟨'&' :: ((lit "pass:[").reverse ++ []), '#' :: (ds ++ ";]".toList), []⟩ (fun s => Regex.run cl.word (.plus (.set cl.digit)) s k) = some r := by
      intro k r h
      rw [Regex.run_ch]
      exact Regex.plus_all hne hdig hsemi h
    have hor : ∀ (x y : Option Regex.St) (r : Regex.St), x = some r → x.or y = some r := by
      intro x y r h; rw [h]; rfl
    refine hor _ _ _ (hgo _ _ ?_)
    have e2 : ";]".toList = ';' :: ']' :: [] := rfl
    rw [e2]
    simp only [Regex.run_ch, Regex.run, if_true, Option.some.injEq, Regex.St.mk.injEq, List.cons.injEq, and_true, Prod.mk.injEq, true_and]
    refine ⟨by simp [lit], ?_, ?_⟩
    · rw [show '&' :: '#' :: (ds ++ [';', ']']) = ("&#".toList ++ ds ++ [';']) ++ [']'] by simp]
      exact AuthorLine.cap_take _ _
    · rw [show '#' :: (ds ++ [';', ']']) = ('#' :: ds) ++ [';', ']'] by simp]
      exact AuthorLine.cap_take _ _
  obtain ⟨s, hs, hc⟩ := hrun
  rw [Regex.captures, AuthorLine.search_now hs]
  simp only [Option.bind_some, Regex.Match.group, hc]

/-- met by a light bulb -/
example : special AuthorLine.ascii "pass:[&#128161;]".toList = "&#128161;".toList := C79_entity_partial AuthorLine.ascii "128161".toList (by decide) (by decide)

/-- C80: references to attributes in the value of an entry in the header are replaced by the values they have there, whatever the
text around them. Partial: the attributes have a text; the other text holds no `{`; the value is on one line and does not start
with `pass:`. -/
theorem C80_references_partial (cl : Classes) (look : List Char → Option AttrValue) (name : List Char) (ps : List Piece) (rest : List Char)
    (hname : Name name) (hps : ∀ p ∈ ps, p.Ok ∧ p.IsSet look) (hne : (ps.map Piece.source).flatten ≠ [])
    (hline : '\n' ∉ (ps.map Piece.source).flatten ∧ '\r' ∉ (ps.map Piece.source).flatten) (hlast : (ps.map Piece.source).flatten.getLast? ≠ some '\\')
    (htrim : (∀ c ∈ (ps.map Piece.source).flatten.head?, space c = false) ∧ ∀ c ∈ (ps.map Piece.source).flatten.getLast?, space c = false)
    (hpass : ¬ "pass:".toList <+: (ps.map (Piece.value look)).flatten) :
    ∃ e, attrDef cl true look (opening .set name ++ ' ' :: (ps.map Piece.source).flatten ++ '\n' :: rest) = .ok e ∧
      e.name = name.map Char.toLower ∧ e.value = .string (String.ofList (ps.map (Piece.value look)).flatten) ∧ e.rest = '\n' :: rest := by
  have h := attrDef_line cl true look .set (n := name) (rest := '\n' :: rest) (line := ' ' :: (ps.map Piece.source).flatten) (v := (ps.map Piece.source).flatten) hname
    ⟨by simpa using hline.1, by simpa using hline.2⟩ (by rw [List.getLast?_cons]; cases hl : (ps.map Piece.source).flatten.getLast? with
      | none => simp
      | some c => rw [hl] at hlast; simpa using hlast) (by simp [atEol]) (by
        have h0 := List.length_pos_iff.2 hne
        have h1 := List.length_pos_iff.2 hname.1
        simp only [opening, List.length_append, List.length_cons, List.length_nil]; omega)
    ⟨[' '], [], by simp, by decide, by simp, htrim.1, htrim.2⟩
  refine ⟨_, h, rfl, ?_, rfl⟩
  have hrep := replaceVals_pieces (word := cl.word) look ps (fun p hp => (hps p hp).1)
  rw [if_neg hne]
  by_cases hb : (' ' :: (ps.map Piece.source).flatten).contains '{' = true
  · simp only [hb, Bool.and_self, if_true, hrep, special_plain cl hpass]
  · have hb' : '{' ∉ (ps.map Piece.source).flatten := by simpa using hb
    have hid : (ps.map Piece.source).flatten = (ps.map (Piece.value look)).flatten := by
      congr 1
      apply List.map_congr_left
      intro p hp
      cases p with
      | text s => rfl
      | ref n => exact absurd (List.mem_flatten.2 ⟨Piece.source (.ref n), List.mem_map.2 ⟨_, hp, rfl⟩, by simp [Piece.source]⟩) hb'
    rw [← hid] at hpass ⊢
    simp only [hb, Bool.false_and, special_plain cl hpass, Bool.false_eq_true, if_false]

/-- met by `:url: https://{host}/a` -/
example : ∃ e, attrDef AuthorLine.ascii true (fun n => if n = "host".toList then some (.string "x.org") else none) ":url: https://{host}/a\n".toList = .ok e ∧
    e.value = .string "https://x.org/a" := by
  obtain ⟨e, h1, _, h2, _⟩ := C80_references_partial AuthorLine.ascii (fun n => if n = "host".toList then some (.string "x.org") else none) "url".toList
    [.text "https://".toList, .ref "host".toList, .text "/a".toList] []
    (by decide) (by
      intro p hp
      simp only [List.mem_cons, List.not_mem_nil, or_false] at hp
      rcases hp with rfl | rfl | rfl
      · exact ⟨by unfold Piece.Ok; decide, trivial⟩
      · exact ⟨by unfold Piece.Ok; decide, ⟨"x.org", by decide⟩⟩
      · exact ⟨by unfold Piece.Ok; decide, trivial⟩)
    (by decide) (by decide) (by decide) ⟨by decide, by decide⟩ (by decide)
  exact ⟨e, h1, h2.trans (by decide)⟩

/-- C80 fails for a reference to an attribute that is not set: it is dropped without notice, although `attribute-missing` is `skip`. -/
theorem C80_missing_violated : ∃ e, attrDef AuthorLine.ascii true (fun _ => none) ":a: see {nope}!\n".toList = .ok e ∧ e.value = .string "see !" := by
  refine ⟨⟨['a'], .string "see !", true, false, ['\n']⟩, by decide +kernel, rfl⟩

/-- C80 fails for a reference with capital letters: the names of entries are read in lower case, those of references are not. -/
theorem C80_case_violated : ∃ e f, attrDef AuthorLine.ascii true (fun _ => none) ":Host: x.org\n".toList = .ok e ∧
    attrDef AuthorLine.ascii true (fun n => if n = e.name then some e.value else none) ":url: {Host}/a\n".toList = .ok f ∧ f.value = .string "/a" := by
  refine ⟨⟨"host".toList, .string "x.org", false, false, ['\n']⟩, ⟨"url".toList, .string "/a", true, false, ['\n']⟩, by decide +kernel, by decide +kernel, rfl⟩

/-- C80 fails for a reference behind a backslash, which is text elsewhere. -/
theorem C80_escape_violated : ∃ e, attrDef AuthorLine.ascii true (fun _ => some (.string "x.org")) ":a: \\{host}\n".toList = .ok e ∧ e.value = .string "\\x.org" := by
  refine ⟨⟨['a'], .string "\\x.org", true, false, ['\n']⟩, by decide +kernel, rfl⟩

/-- C81: an `author` entry in the header with two words or more adds the author: the first word is the first name, the last one the
last name, the words between them the middle name, and `author` is the whole name. Underscores stand for spaces. Partial: two words
or more; the value is as for `C79_one_line_partial`. -/
theorem C81_author_partial (cl : Classes) (look : List Char → Option AttrValue) (m : DocumentMeta) (first last : List Char) (mids : List (List Char)) (s rest : List Char)
    (hm : m.authors = []) (hs : Words (first :: mids ++ [last]) s)
    (hline : '\n' ∉ s ∧ '\r' ∉ s ∧ '{' ∉ s) (hlast : s.getLast? ≠ some '\\') (htrim : (∀ c ∈ s.head?, space c = false) ∧ ∀ c ∈ s.getLast?, space c = false)
    (hpass : ¬ "pass:".toList <+: s) :
    ∃ e m', attrDef cl true look (":author: ".toList ++ s ++ '\n' :: rest) = .ok e ∧ headerEntry m (String.ofList e.name) e.value = some m' ∧
      m'.authors = [⟨String.ofList (names first), if mids = [] then none else some (String.ofList (names (spaced mids))), String.ofList (names last), none⟩] ∧
      m'.headerAttrs "firstname" = some (.string (String.ofList (names first))) ∧
      m'.headerAttrs "lastname" = some (.string (String.ofList (names last))) ∧
      (mids ≠ [] → m'.headerAttrs "middlename" = some (.string (String.ofList (names (spaced mids))))) ∧
      m'.headerAttrs "author" = some (.string (String.ofList (names (spaced (first :: mids ++ [last]))))) := by
  have hw := words_eq hs
  have hsne : s ≠ [] := by rintro rfl; simp [words] at hw
  have hname : Name "author".toList := by decide
  obtain ⟨e, h1, h2, h3, h4, _⟩ := C79_one_line_partial cl true look .set "author".toList (' ' :: s) ('\n' :: rest) s hname
    ⟨by simpa using hline.1, by simpa using hline.2.1⟩ (by rw [List.getLast?_cons]; cases hl : s.getLast? with
      | none => simp
      | some c => rw [hl] at hlast; simpa using hlast) (.inr (.inl rfl)) (by simp [opening])
    ⟨[' '], [], by simp, by decide, by simp, htrim.1, htrim.2⟩ hpass (.inr (by simpa using hline.2.2))
  have hmem := words_mem hs
  have nf : names first ≠ [] := by simpa [names] using (hmem first (by simp)).1
  have nl : names last ≠ [] := by simpa [names] using (hmem last (by simp)).1
  have e1 : ":author: ".toList ++ s ++ '\n' :: rest = opening .set "author".toList ++ ' ' :: s ++ '\n' :: rest := rfl
  rw [e1]
  have hv : e.value = .string (String.ofList s) := by rw [h3, meaning, if_neg hsne]
  have hn : String.ofList e.name = "author" := by rw [h2]; decide
  have ha := authorFromAttr_words hs
  have hne : ∀ l : List Char, l ≠ [] → String.ofList l ≠ "" := by
    intro l hl e
    have := congrArg String.toList e
    simp at this; exact hl this
  have hins : (m.insertHeaderAttr "author" (.string (String.ofList s))).1.authors = [] := by
    simp [DocumentMeta.insertHeaderAttr, JOB_ONLY, hm]
  obtain ⟨m', g1, g2, g3, g4, g5, g6⟩ := addAuthor_first (m.insertHeaderAttr "author" (.string (String.ofList s))).1
    (author ⟨names first, if mids = [] then none else some (names (spaced mids)), names last, none⟩) hins (hne _ nf) (hne _ nl)
  refine ⟨e, m', h1, ?_, ?_, g3, g4, ?_, ?_⟩
  · rw [hn, hv, headerEntry]
    simp only [hm, and_self, if_true, ha]
    simpa using g1
  · rw [g2, author]
    by_cases h : mids = [] <;> simp [h]
  · intro h
    exact g5 _ (by simp [author, h])
  · rw [g6]
    congr 2
    apply String.toList_inj.1
    by_cases h : mids = []
    · simp [Author.fullname, author, h, spaced, names]
    · obtain ⟨x, xs, rfl⟩ := List.exists_cons_of_ne_nil h
      have := spaced_last (x :: xs) last (by simp)
      have e3 : spaced (first :: (x :: xs) ++ [last]) = first ++ ' ' :: (spaced (x :: xs) ++ ' ' :: last) := by
        rw [← this]; rfl
      rw [e3]
      simp [Author.fullname, author, names]

/-- met by `Jo Q. van_Dyke` -/
example : ∃ e m', attrDef AuthorLine.ascii true (fun _ => none) ":author: Jo  Q. van_Dyke\n".toList = .ok e ∧
    headerEntry (DocumentMeta.ofSettings none .modeSafe Map.empty false) (String.ofList e.name) e.value = some m' ∧
    m'.headerAttrs "lastname" = some (.string "van Dyke") ∧ m'.headerAttrs "author" = some (.string "Jo Q. van Dyke") := by
  have hw : Words ["Jo".toList, "Q.".toList, "van_Dyke".toList] "Jo  Q. van_Dyke".toList :=
    .cons [] "Jo".toList _ "  Q. van_Dyke".toList (by decide) (by decide) (by decide) (by decide)
      (.cons "  ".toList "Q.".toList _ " van_Dyke".toList (by decide) (by decide) (by decide) (by decide)
        (.last " ".toList "van_Dyke".toList [] (by decide) (by decide) (by decide)))
  obtain ⟨e, m', h1, h2, _, _, h3, _, h4⟩ := C81_author_partial AuthorLine.ascii (fun _ => none) (DocumentMeta.ofSettings none .modeSafe Map.empty false)
    "Jo".toList "van_Dyke".toList ["Q.".toList] "Jo  Q. van_Dyke".toList [] rfl hw (by decide) (by decide) ⟨by decide, by decide⟩ (by decide)
  exact ⟨e, m', h1, h2, h3.trans (by decide), h4.trans (by decide)⟩

/-- C81 fails for a single name: it is taken for the first name and for the last name, and `author` has it twice. -/
theorem C81_one_name_violated (m : DocumentMeta) (hm : m.authors = []) : ∃ m', headerEntry m "author" (.string "Plato") = some m' ∧
    m'.headerAttrs "author" = some (.string "Plato Plato") ∧ m'.headerAttrs "lastname" = some (.string "Plato") := by
  have hins : (m.insertHeaderAttr "author" (.string "Plato")).1.authors = [] := by
    simp [DocumentMeta.insertHeaderAttr, JOB_ONLY, hm]
  obtain ⟨m', g1, _, _, g4, _, g6⟩ := addAuthor_first (m.insertHeaderAttr "author" (.string "Plato")).1 ⟨"Plato", none, "Plato", none⟩ hins (by decide) (by decide)
  refine ⟨m', ?_, g6.trans (by decide), g4⟩
  have ha : authorFromAttr (.string "Plato") = some ⟨"Plato".toList, none, "Plato".toList, none⟩ := by decide +kernel
  rw [headerEntry]
  simp only [hm, and_self, if_true, ha]
  simpa [author] using g1

/-- C81: an entry in the header does not make the program panic when its value, if it is a text, holds something else than white
space. Partial: otherwise an `author` entry can (`C81_missing_names_violated`). -/
theorem C81_no_panic_partial (m : DocumentMeta) (name : String) (v : AttrValue) (h : ∀ s, v = .string s → ∃ c ∈ s.toList, space c = false) : headerEntry m name v ≠ none := by
  rw [headerEntry]
  by_cases hc : name = "author" ∧ m.authors = []
  · rw [if_pos hc]
    cases v with
    | bool b => cases b <;> simp [authorFromAttr, AttrValue.str]
    | string s =>
      obtain ⟨c, hc1, hc2⟩ := h s rfl
      have hne : s ≠ "" := by rintro rfl; simp at hc1
      obtain ⟨w, ws, hw, hall⟩ := words_some (p := []) (l := s.toList) (.inr ⟨c, hc1, hc2⟩)
      have ha : ∃ a, authorFromAttr (.string s) = some a ∧ a.first ≠ [] ∧ a.last ≠ [] := by
        simp only [authorFromAttr, AttrValue.str, if_neg hne, hw]
        refine ⟨_, rfl, ?_, ?_⟩
        · have := hall w (by simp)
          simpa [AuthorLine.deUnderscore] using this
        · have hl : (w :: ws)[(w :: ws).length - 1]? = some ((w :: ws).getLast (by simp)) := by
            rw [← List.getLast?_eq_getElem?]; exact List.getLast?_eq_some_getLast (by simp)
          have := hall _ (List.getLast_mem (l := w :: ws) (by simp))
          rw [hl]
          simpa [AuthorLine.deUnderscore] using this
      obtain ⟨a, h1, h2, h3⟩ := ha
      simp only [h1]
      have hne : ∀ l : List Char, l ≠ [] → String.ofList l ≠ "" := by
        intro l hl e
        have := congrArg String.toList e
        simp at this; exact hl this
      have hm : ∀ x, (m.insertHeaderAttr "author" x).1.authors = [] := by
        intro x; simp [DocumentMeta.insertHeaderAttr, JOB_ONLY, hc.2]
      obtain ⟨m', g, _⟩ := addAuthor_first (m.insertHeaderAttr "author" (.string s)).1 (author a) (hm _) (hne _ h2) (hne _ h3)
      rw [hc.1]
      simp [g]
  · rw [if_neg hc]; simp

example : ∀ s, AttrValue.string "Plato" = .string s → ∃ c ∈ s.toList, space c = false := by
  rintro s h; cases h; exact ⟨'P', by decide, by decide⟩

/-- C81 fails when the names come from attributes that are not set: the program panics. -/
theorem C81_missing_names_violated (m : DocumentMeta) (hm : m.authors = []) :
    ∃ e, attrDef AuthorLine.ascii true (fun _ => none) ":author: {first} {last}\n".toList = .ok e ∧ headerEntry m (String.ofList e.name) e.value = none := by
  refine ⟨⟨"author".toList, .string " ", true, false, ['\n']⟩, by decide +kernel, ?_⟩
  have ha : authorFromAttr (.string " ") = some ⟨[], none, [], none⟩ := by decide +kernel
  have hn : String.ofList "author".toList = "author" := by decide
  rw [hn, headerEntry]
  simp only [hm, and_self, if_true, ha]
  rw [DocumentMeta.addAuthor]
  rfl

end Verif.Props

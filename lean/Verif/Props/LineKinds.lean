import Verif.Lemmas.ListItems
import Verif.Props.Lists
/-! Properties C88–C90: what the lines of a source text are taken for — headings, the items of lists, comments, titles and breaks. -/
namespace Verif.Props
open Verif Verif.Lexer Verif.Directives Verif.LineKinds

instance (s : List UInt8) : Decidable (Tight s) :=
  decidable_of_iff (s.head?.all (fun x => !isSpace x) = true) (by rw [tight_iff]; cases s.head? <;> simp)

instance (s : List UInt8) : Decidable (Blank s) := inferInstanceAs (Decidable (∀ x ∈ s, x = 32 ∨ x = 9 ∨ x = 11 ∨ x = 12))

/-! ### C88 -/

/-- C88: the headings of a source text are the lines that are written as headings, and no others. The level is the number of marks
less one (in eight bits), and the text is the title. -/
theorem C88_headings (plugins : List (List UInt8)) (nl : List UInt8) (hnl : nl = [10] ∨ nl = [13, 10]) (lines : List (List Char))
    (hl : ∀ l ∈ lines, '\n' ∉ l ∧ '\r' ∉ l) :
    ∃ hs, headings plugins (lines.flatMap (encode · ++ nl)) = some hs ∧ hs.length = lines.length ∧
      ∀ (i : Nat) (line : List Char), lines[i]? = some line → ∀ (level : Nat) (title : List Char),
        hs[i]? = some (some (level, title)) ↔ ∃ n, Heading (encode line) n (encode title) ∧ level = n % 256 := by
  obtain ⟨tokss, h1, h2⟩ := lexed_lines (plugins := plugins) hnl hl
  obtain ⟨p1, p2⟩ := pairs_at h2 (fun l => (headingLevel l).map fun n => (n, headingText l))
  refine ⟨_, by rw [headings, eachLine, h1]; rfl, p1, ?_⟩
  intro i line hi level title
  obtain ⟨toks, e, hline⟩ := p2 i line hi
  have hat := Verif.Lexer.LineOf.at hline
  rw [e]
  have text : ∀ {n t}, Heading (encode line) n (encode t) → headingText toks = t := fun hh => lineText_eq (heading_text hat hh)
  constructor
  · intro h
    have h := Option.some.inj h
    simp only [Option.map_eq_some_iff, Prod.mk.injEq] at h
    obtain ⟨l, hlv, rfl, ht⟩ := h
    obtain ⟨n, tb, hh, hn⟩ := (heading_iff hat l).1 hlv
    obtain ⟨t, rfl⟩ := heading_rest hh
    rw [text hh] at ht
    subst ht
    exact ⟨n, hh, hn⟩
  · rintro ⟨n, hh, rfl⟩
    have := (heading_iff hat (n % 256)).2 ⟨n, _, hh, rfl⟩
    simp [this, text hh]

/-- C88, for the levels there are: up to six marks -/
theorem C88_level (plugins : List (List UInt8)) (nl : List UInt8) (hnl : nl = [10] ∨ nl = [13, 10]) (before after : List (List Char)) (mark : Char) (hm : mark = '=' ∨ mark = '#')
    (n : Nat) (hn : n < 6) (title : List Char) (ht : title ≠ [] ∧ ∀ c, title.head? = some c → c ∉ whites)
    (hl : ∀ l ∈ before ++ title :: after, '\n' ∉ l ∧ '\r' ∉ l) :
    ∃ hs, headings plugins ((before ++ (List.replicate (n + 1) mark ++ [' '] ++ title) :: after).flatMap (encode · ++ nl)) = some hs ∧
      hs[before.length]? = some (some (n, title)) := by
  obtain ⟨hs, h1, _, h3⟩ := C88_headings plugins nl hnl (before ++ (List.replicate (n + 1) mark ++ [' '] ++ title) :: after) (by
    intro l hl'
    rcases List.mem_append.1 hl' with h | h
    · exact hl l (by simp [h])
    · rcases List.mem_cons.1 h with rfl | h
      · obtain ⟨h1, h2⟩ := hl title (by simp)
        rcases hm with rfl | rfl <;> simp [h1, h2]
      · exact hl l (by simp [h]))
  refine ⟨hs, h1, (h3 before.length (List.replicate (n + 1) mark ++ [' '] ++ title) (by simp) n title).2 ⟨n, ?_, by omega⟩⟩
  obtain ⟨b, l, e, hb⟩ := tight_encode ht.1 ht.2
  refine ⟨ch mark, by rcases hm with rfl | rfl <;> simp, [32], ?_, by simp, by simp [Blank], by simp [e], ?_⟩
  · have hr : encode (List.replicate (n + 1) mark) = List.replicate (n + 1) (ch mark) := by
      rw [enc_bs (by intro c hc; rw [(List.mem_replicate.1 hc).2]; rcases hm with rfl | rfl <;> decide), List.map_replicate]
    rw [encode_append, encode_append, hr]
    rfl
  · rw [e, tight_iff]
    rintro x hx
    cases hx
    exact hb

example : ∃ hs, headings [] (encode "= Doc\n\na == b\n### Größe\n".toList) = some hs ∧ hs[0]? = some (some (0, "Doc".toList)) ∧ hs[3]? = some (some (2, "Größe".toList)) ∧ hs[2]? = some none := by
  obtain ⟨hs, h1, h2, h3⟩ := C88_headings [] [10] (.inl rfl) ["= Doc".toList, [], "a == b".toList, "### Größe".toList] (by decide)
  have e : encode "= Doc\n\na == b\n### Größe\n".toList = ["= Doc".toList, [], "a == b".toList, "### Größe".toList].flatMap (encode · ++ [10]) := by decide +kernel
  refine ⟨hs, by rw [e]; exact h1, ?_, ?_, ?_⟩
  · exact (h3 0 _ rfl 0 _).2 ⟨0, ⟨ch '=', by simp, [32], by decide +kernel, by simp, by simp [Blank], by decide +kernel, by decide +kernel⟩, rfl⟩
  · exact (h3 3 _ rfl 2 _).2 ⟨2, ⟨ch '#', by simp, [32], by decide +kernel, by simp, by simp [Blank], by decide +kernel, by decide +kernel⟩, rfl⟩
  · cases e : hs[2]? with
    | none => rw [List.getElem?_eq_none_iff, h2] at e; exact absurd e (by decide)
    | some o =>
      cases o with
      | none => rfl
      | some p =>
        obtain ⟨n, ⟨mark, hm, sp, e', _⟩, _⟩ := (h3 2 _ rfl p.1 p.2).1 e
        have : (97 : UInt8) = mark := by
          rw [List.replicate_succ] at e'
          have := congrArg List.head? e'
          simp only [List.cons_append, List.head?_cons] at this
          exact Option.some.inj this
        subst this
        exact absurd hm (by decide)

/-- C88 fails for very long marks: 257 of them make the title of the document again. And seven marks are a heading, of a level
that does not exist. -/
theorem C88_levels_violated : (∃ hs, headings [] ([List.replicate 257 '=' ++ [' ', 'a']].flatMap (encode · ++ [10])) = some hs ∧ hs[0]? = some (some (0, ['a']))) ∧
    headings [] (bs "======= a\n") = some [some (6, ['a'])] := by
  refine ⟨?_, by decide +kernel⟩
  have hr : encode (List.replicate 257 '=' ++ [' ', 'a']) = List.replicate 257 (ch '=') ++ [32] ++ [97] := by
    rw [encode_append, enc_bs (by intro c hc; rw [(List.mem_replicate.1 hc).2]; decide), List.map_replicate, List.append_assoc]
    rfl
  obtain ⟨hs, h1, _, h3⟩ := C88_headings [] [10] (.inl rfl) [List.replicate 257 '=' ++ [' ', 'a']] (by
    intro l hl
    obtain rfl := List.mem_singleton.1 hl
    constructor
    · intro h
      rcases List.mem_append.1 h with h | h
      · exact absurd (List.mem_replicate.1 h).2 (by decide)
      · exact absurd h (by decide)
    · intro h
      rcases List.mem_append.1 h with h | h
      · exact absurd (List.mem_replicate.1 h).2 (by decide)
      · exact absurd h (by decide))
  refine ⟨hs, h1, (h3 0 _ rfl 0 ['a']).2 ⟨256, ⟨ch '=', by simp, [32], hr, by simp, by simp [Blank], by decide, by decide⟩, rfl⟩⟩

/-! ### C89 -/

/-- C89 (lists of a source text): a text whose lines are those of paragraphs and lists, with empty lines between the chunks, is read
as these paragraphs and lists, nested by their markers.

Missing: description lists, list continuations, attribute lists and delimited blocks between items; lines of text that do not start
with a letter, or with attribute references, e-mail addresses or `::`. -/
theorem C89_lists_partial (plugins : List (List UInt8)) (word : Char → Bool) (nl : List UInt8) (hnl : nl = [10] ∨ nl = [13, 10])
    (pieces : List Lists.Piece) (hok : ∀ p ∈ pieces, p.ok) (hsep : Lists.Separated pieces)
    (doc : List (List (List Char × Lists.Ln))) (hdoc : doc.map (·.map Prod.snd) = pieces.flatMap Lists.Piece.write)
    (hspell : ∀ chunk ∈ doc, ∀ p ∈ chunk, Spelled p.1 p.2) (lines : List (List Char)) (hlaid : Laid (doc.map (·.map Prod.fst)) lines) :
    ∃ N, ∀ n ≥ N, ∃ blocks, readLists plugins word (lines.flatMap (encode · ++ nl)) n = some (blocks, { chunks := [] }) ∧ Lists.Become pieces blocks := by
  have hchars : ∀ {l ln}, Spelled l ln → ('\n' ∉ l ∧ '\r' ∉ l) ∧ ∃ x ∈ encode l, isSpace x = false := by
    intro l ln hs
    cases hs with
    | item h =>
      refine ⟨?_, ?_⟩
      · have := item_chars h
        exact ⟨fun hc => this _ hc (by simp), fun hc => this _ hc (by simp)⟩
      · obtain ⟨b, l, e, hb⟩ := tight_encode h.body.1 h.body.2
        refine ⟨b, ?_, hb⟩
        rw [h.split, encode_append, e]
        simp
    | text h =>
      refine ⟨⟨fun hc => h.chars _ hc (by simp), fun hc => h.chars _ hc (by simp)⟩, ?_⟩
      obtain ⟨c, hc, hh⟩ := h.first
      cases l with
      | nil => cases hh
      | cons c' l =>
        cases hh
        obtain ⟨b, l', e, hb⟩ := tight_encode (text := [c]) (by simp) (by rintro x hx; cases hx; exact (by decide : ∀ c ∈ letters, c ∉ whites) _ hc)
        refine ⟨b, ?_, hb⟩
        rw [show c :: l = [c] ++ l from rfl, encode_append, e]
        simp
  have hcl : ∀ l ∈ lines, '\n' ∉ l ∧ '\r' ∉ l := by
    intro l hl
    rcases laid_mem hlaid l hl with rfl | ⟨c, hc, hlc⟩
    · simp
    · obtain ⟨d, hd, rfl⟩ := List.mem_map.1 hc
      obtain ⟨p, hp, rfl⟩ := List.mem_map.1 hlc
      exact (hchars (hspell d hd p hp)).1
  obtain ⟨tokss, h1, h2⟩ := lexed_lines (plugins := plugins) hnl hcl
  have hch := chunks_laid hlaid (tokss.length + 1) (Nat.lt_succ_self _) (by
    intro c hc l hlc
    obtain ⟨d, hd, rfl⟩ := List.mem_map.1 hc
    obtain ⟨p, hp, rfl⟩ := List.mem_map.1 hlc
    exact (hchars (hspell d hd p hp)).2) h2
  have hall := all_classified (f := classify word) hch (by
    intro c hc p hp toks ht
    have key : ∀ {l ln}, Spelled l ln → LineOf plugins toks (encode l) → classify word toks = some ln := by
      intro l ln hs ht
      cases hs with
      | item h => exact item_classify h ht
      | text h => exact text_classify h ht
    exact key (hspell c hc p hp) ht)
  obtain ⟨N, hN⟩ := C36_nesting_partial pieces hok hsep
  refine ⟨N, fun n hn => ?_⟩
  obtain ⟨blocks, hb, hbec⟩ := hN n hn
  refine ⟨blocks, ?_, hbec⟩
  rw [readLists, listChunks, h1]
  simp only [Option.bind_some, hall, hdoc, hb]

section
private def exDoc : List (List (List Char × Lists.Ln)) :=
  [[("Some text".toList, .text "Some text".toList)],
    [("* a".toList, .item (.star 1) "a".toList), ("more; b".toList, .text "more; b".toList), ("  12. x é".toList, .item (.digits 12) "x é".toList)],
    [("** c".toList, .item (.star 2) "c".toList)]]

private def exPieces : List Lists.Piece :=
  [.para "Some text".toList [], .items [[⟨.star 1, "a".toList, ["more; b".toList]⟩, ⟨.digits 12, "x é".toList, []⟩], [⟨.star 2, "c".toList, []⟩]]]

private theorem exText {l : List Char} (h1 : ∃ c ∈ letters, l.head? = some c) (h2 : ∀ c ∈ l, c ∉ ['\n', '\r', '{', '@']) (h3 : ':' ∉ l.takeWhile (· ≠ ' ')) (h4 : l.filter (fun c => c == ':' || c == ';') = [] ∨ (l.filter (fun c => c == ':' || c == ';')).length ≤ 1) :
    TextLine l := by
  have two : ∀ {x : Char}, (x == ':' || x == ';') = true → ¬ [x, x] <:+: l := by
    rintro x hx ⟨a, b, rfl⟩
    simp only [List.filter_append, List.filter_cons, hx, if_true, List.filter_nil] at h4
    rcases h4 with h4 | h4 <;> simp at h4
    omega
  exact ⟨h1, h2, h3, two (by decide), two (by decide)⟩

example : ∃ N, ∀ n ≥ N, ∃ blocks, readLists [] (fun _ => false) (["Some text".toList, [], [], "* a".toList, "more; b".toList, "  12. x é".toList, [], "** c".toList, []].flatMap (encode · ++ [10])) n =
    some (blocks, { chunks := [] }) ∧ Lists.Become exPieces blocks := by
  refine C89_lists_partial [] _ [10] (.inl rfl) exPieces ?_ ?_ exDoc rfl ?_ _ ?_
  · intro p hp
    simp only [exPieces, List.mem_cons, List.not_mem_nil, or_false] at hp
    rcases hp with rfl | rfl
    · simp [Lists.Piece.ok]
    · simp [Lists.Piece.ok]
  · simp [exPieces, Lists.Separated]
  · intro c hc p hp
    simp only [exDoc, List.mem_cons, List.not_mem_nil, or_false] at hc
    rcases hc with rfl | rfl | rfl
    · simp only [List.mem_cons, List.not_mem_nil, or_false] at hp
      subst hp
      exact .text (exText ⟨'S', by decide, rfl⟩ (by decide) (by decide) (by decide))
    · simp only [List.mem_cons, List.not_mem_nil, or_false] at hp
      rcases hp with rfl | rfl | rfl
      · exact .item (indent := []) (mark := ['*']) (gap := [' '])
          ⟨rfl, Mark.star (n := 1) (by decide) (by decide), by decide, by decide, ⟨by decide, by rintro c h; cases h; decide⟩, by decide, by rintro n h; (cases h),
            by rintro _ g e h; (simp at h), by rintro h; (cases h)⟩
      · exact .text (exText ⟨'m', by decide, rfl⟩ (by decide) (by decide) (by decide))
      · exact .item (indent := [' ', ' ']) (mark := ['1', '2', '.']) (gap := [' '])
          ⟨rfl, Mark.digits (ds := ['1', '2']) (by decide) (by decide) (by decide), by decide, by decide, ⟨by decide, by rintro c h; cases h; decide⟩, by decide, by rintro n h; (cases h),
            by rintro h; (cases h), by rintro h; (cases h)⟩
    · simp only [List.mem_cons, List.not_mem_nil, or_false] at hp
      subst hp
      exact .item (indent := []) (mark := ['*', '*']) (gap := [' '])
          ⟨rfl, Mark.star (n := 2) (by decide) (by decide), by decide, by decide, ⟨by decide, by rintro c h; cases h; decide⟩, by decide, by rintro n h; (simp),
            by rintro h; (cases h), by rintro h; (cases h)⟩
  · exact .cons (by decide) (.blank (.cons (chunk := ["* a".toList, "more; b".toList, "  12. x é".toList]) (by decide) (.cons (chunk := ["** c".toList]) (by decide) .nil)))
end

/-- C89 (nothing else is an item): a line that is read as an item of a list is white space, a marker, white space and the text. -/
theorem C89_only_items (plugins : List (List UInt8)) (word : Char → Bool) (nl : List UInt8) (hnl : nl = [10] ∨ nl = [13, 10]) (lines : List (List Char))
    (hl : ∀ l ∈ lines, '\n' ∉ l ∧ '\r' ∉ l) :
    ∃ ms, eachLine (listMarker word) plugins (lines.flatMap (encode · ++ nl)) = some ms ∧ ms.length = lines.length ∧
      ∀ (i : Nat) (line : List Char), lines[i]? = some line → ∀ m, ms[i]? = some (some m) → m.isDescription = false →
        ∃ indent mark gap text, line = indent ++ mark ++ gap ++ text ∧ Taken m mark ∧ (∀ c ∈ indent, c ∈ whites) ∧ gap ≠ [] ∧ ∀ c ∈ gap, c ∈ whites := by
  obtain ⟨tokss, h1, h2⟩ := lexed_lines (plugins := plugins) hnl hl
  obtain ⟨p1, p2⟩ := pairs_at h2 (listMarker word)
  refine ⟨_, by rw [eachLine, h1]; rfl, p1, ?_⟩
  intro i line hi m hm hd
  obtain ⟨toks, e, hline⟩ := p2 i line hi
  rw [e] at hm
  exact item_inv hline (Option.some.inj hm) hd

/-- what the lines of a source are taken for, as markers of items -/
def marks (src : String) : Option (List (Option Lists.Marker)) := eachLine (listMarker fun _ => false) [] (bs src)

/-- C89 fails for some lines that are written as items: two stars behind two blanks, and a dash before a dash. -/
theorem C89_items_missed_violated : marks "  * a\n  ** b\n - c\n- -5 degrees\n- - -x\n99999. d\n" =
    some [some (.star 1), none, some .dash, none, none, none] := by decide +kernel

/-- C89 fails for some lines that are not written as items: a number with two dots, and marks without text. `**` without text is
an item with two blanks after it, but not with one. -/
theorem C89_items_made_up_violated : marks "1.. a\n1. \n<1> \n* \n**  \n** \n<300> a\n" =
    some [some (.digits 1), some (.digits 1), some (.callout (some 1)), none, some (.star 2), none, some (.callout none)] := by decide +kernel

/-! ### C90 -/

/-- C90 (comments and titles): the comment lines of a source text are those that start with two slashes and no third one, and the
lines with the title of a block are those that start with a dot, and no second one or white space after it. -/
theorem C90_comments_and_titles (plugins : List (List UInt8)) (nl : List UInt8) (hnl : nl = [10] ∨ nl = [13, 10]) (lines : List (List Char))
    (hl : ∀ l ∈ lines, '\n' ∉ l ∧ '\r' ∉ l) :
    ∃ cs ts, eachLine isComment plugins (lines.flatMap (encode · ++ nl)) = some cs ∧ eachLine isTitle plugins (lines.flatMap (encode · ++ nl)) = some ts ∧
      cs.length = lines.length ∧ ts.length = lines.length ∧
      ∀ (i : Nat) (line : List Char), lines[i]? = some line →
        (cs[i]? = some true ↔ Comment (encode line)) ∧ (ts[i]? = some true ↔ ∃ title, Title (encode line) title) := by
  obtain ⟨tokss, h1, h2⟩ := lexed_lines (plugins := plugins) hnl hl
  obtain ⟨p1, p2⟩ := pairs_at h2 isComment
  obtain ⟨q1, q2⟩ := pairs_at h2 isTitle
  refine ⟨_, _, by rw [eachLine, h1]; rfl, by rw [eachLine, h1]; rfl, p1, q1, ?_⟩
  intro i line hi
  obtain ⟨toks, e, hline⟩ := p2 i line hi
  obtain ⟨toks', e', hline'⟩ := q2 i line hi
  rw [e, e', ← comment_iff (Verif.Lexer.LineOf.at hline), ← title_iff (Verif.Lexer.LineOf.at hline')]
  simp

/-- C90 (breaks): the thematic breaks of a source text are the lines `'''`, `***`, `---`, `* * *` and `- - -`, and the page breaks are
the lines `<<<`, each with white space after it, and no other lines. -/
theorem C90_breaks (plugins : List (List UInt8)) (nl : List UInt8) (hnl : nl = [10] ∨ nl = [13, 10]) (lines : List (List Char))
    (hl : ∀ l ∈ lines, '\n' ∉ l ∧ '\r' ∉ l) :
    ∃ brs, eachLine breakOf plugins (lines.flatMap (encode · ++ nl)) = some brs ∧ brs.length = lines.length ∧
      ∀ (i : Nat) (line : List Char), lines[i]? = some line →
        (brs[i]? = some (some .thematic) ↔ ThematicBreak (encode line)) ∧ (brs[i]? = some (some .page) ↔ PageBreak (encode line)) := by
  obtain ⟨tokss, h1, h2⟩ := lexed_lines (plugins := plugins) hnl hl
  obtain ⟨p1, p2⟩ := pairs_at h2 breakOf
  refine ⟨_, by rw [eachLine, h1]; rfl, p1, ?_⟩
  intro i line hi
  obtain ⟨toks, e, hline⟩ := p2 i line hi
  rw [e, ← thematic_iff (Verif.Lexer.LineOf.at hline), ← page_iff (Verif.Lexer.LineOf.at hline)]
  simp

example : Comment (bs "// a") ∧ ¬ Comment (bs "/// a") ∧ Title (bs ".a b") (bs "a b") ∧ ¬ ∃ t, Title (bs "..a") t := by
  refine ⟨⟨bs " a", by decide, by decide⟩, ?_, ⟨by decide, by decide, by decide, by decide⟩, ?_⟩
  · rintro ⟨rest, e, h⟩
    have : rest = bs "/ a" := by
      have : bs "/// a" = bs "//" ++ bs "/ a" := by decide
      rw [this] at e
      exact (List.append_cancel_left e).symm
    subst this
    exact h (by decide)
  · rintro ⟨t, e, _, _, h⟩
    have : t = bs ".a" := by
      have e2 : bs "..a" = ch '.' :: bs ".a" := by decide
      rw [e2] at e
      exact (List.cons.inj e).2.symm
    subst this
    exact h (by decide)

example : ThematicBreak (bs "* * *  ") ∧ ThematicBreak (bs "---") ∧ PageBreak (bs "<<<") :=
  ⟨.inr ⟨ch '*', by decide, 32, 32, by decide, bs "  ", by decide, by decide⟩, .inl ⟨bs "---", by decide, [], by decide, by decide⟩, ⟨[], by decide, by decide⟩⟩

/-- C90 fails for `***` with two blanks after it: the line is a break, but lists are looked for first (`parse_block.rs:64-65`), and
it is taken for an item without text. With one blank, or none, it is a break. -/
theorem C90_break_is_item_violated : eachLine breakOf [] (bs "***  \n*** \n") = some [some .thematic, some .thematic] ∧
    marks "***  \n*** \n" = some [some (.star 3), none] := by constructor <;> decide +kernel

end Verif.Props

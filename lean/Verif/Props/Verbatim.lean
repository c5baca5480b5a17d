import Verif.Lemmas.Verbatim
/-! C85, C86: delimited blocks whose lines are kept. -/
namespace Verif.Props
open Verif Verif.Lexer Verif.Directives Verif.Verbatim

/-- the tokens of a source with a block -/
private theorem lexed {plugins : List (List UInt8)} {nl : List UInt8} (hnl : nl = [10] ∨ nl = [13, 10]) {fence : List Char} (hf : fence ∈ fences)
    {lines after : List (List Char)} (hl : ∀ l ∈ lines, PlainText l) (ha : ∀ l ∈ after, PlainText l) (indent : Option Nat) :
    ∃ O C X A, Pairs (Is plugins (encode fence)) C lines ∧ Pairs (Is plugins (encode fence)) A after ∧ startsDelim (fenceDelim (encode fence)) O = true ∧
      isDelim (fenceDelim (encode fence)) X = true ∧ readBlock plugins indent (source nl fence lines after) = block indent (O :: (C ++ X :: A)) := by
  obtain ⟨hD, hfp⟩ := fence_bytes hf
  have hall : ∀ l ∈ fence :: (lines ++ fence :: after), PlainText l := by
    intro l h
    simp only [List.mem_cons, List.mem_append] at h
    rcases h with rfl | h | rfl | h
    · exact hfp
    · exact hl l h
    · exact hfp
    · exact ha l h
  have hlen : ∀ ls : List (List Char), ls.length ≤ (ls.flatMap (encode · ++ nl)).length := by
    intro ls
    induction ls with
    | nil => simp
    | cons d l ih =>
      have : 0 < nl.length := by rcases hnl with rfl | rfl <;> simp
      simp only [List.length_cons, List.flatMap_cons, List.length_append] at ih ⊢
      omega
  have hsrc : source nl fence lines after = [] ++ ((fence :: (lines ++ fence :: after)).map encode).flatMap (· ++ nl) := by
    rw [List.nil_append, List.flatMap_map]; rfl
  obtain ⟨tokss, h1, h2⟩ := lexLines_spec (plugins := plugins) hnl ((fence :: (lines ++ fence :: after)).map encode) ((source nl fence lines after).length + 1) []
    (.inl rfl) (by
      intro l hl' x hx
      obtain ⟨d, hd, rfl⟩ := List.mem_map.1 hl'
      exact clean_encode (hall d hd).line x hx) (by
      rw [List.length_map]
      have := hlen (fence :: (lines ++ fence :: after))
      show _ < (List.flatMap _ _).length + 1
      omega)
  rw [← hsrc] at h1
  have conv : ∀ (ls : List (List Char)) (tokss : List (List Tok)), (∀ l ∈ ls, PlainText l) → Pairs (LineOf plugins) tokss (ls.map encode) → Pairs (Is plugins (encode fence)) tokss ls := by
    intro ls
    induction ls with
    | nil => intro tokss _ h; cases h; exact .nil
    | cons l ls ih =>
      intro tokss hp h
      cases h with
      | cons g1 g2 => exact .cons (Is.of hD (hp l (by simp)) g1) (ih _ (fun x hx => hp x (by simp [hx])) g2)
  have h3 := conv _ tokss hall h2
  have hplain : tokss.all plainLine = true := by
    have : ∀ (ls : List (List Char)) (tokss : List (List Tok)), Pairs (Is plugins (encode fence)) tokss ls → tokss.all plainLine = true := by
      intro ls tokss h
      induction h with
      | nil => rfl
      | cons g _ ih => simp [g.plain, ih]
    exact this _ _ h3
  cases h3 with
  | @cons O _ rest _ g1 g2 =>
    obtain ⟨C, XA, rfl, g3, g4⟩ := Pairs.split g2
    cases g4 with
    | @cons X _ A _ g5 g6 =>
      refine ⟨O, C, X, A, g3, g6, ?_, ?_, ?_⟩
      · exact g1.ln.starts.2 (.inl g1.bytes)
      · exact g5.ln.closes.2 g5.bytes
      · unfold readBlock
        simp only [List.length_nil] at h1
        rw [h1]
        simp only [Option.bind_eq_bind, Option.bind_some]
        rw [if_pos hplain]

private theorem pairs_text {plugins : List (List UInt8)} {D : List UInt8} {C : List (List Tok)} {ls : List (List Char)} (h : Pairs (Is plugins D) C ls) : C.map lineText = ls := by
  induction h with
  | nil => rfl
  | cons g _ ih => rw [List.map_cons, g.text, ih]

private theorem repl_prefix {a b : Nat} {x : Char} (h : a ≤ b) : List.replicate a x <+: List.replicate b x :=
  ⟨List.replicate (b - a) x, by rw [List.replicate_append_replicate]; congr 1; omega⟩

private theorem pairs_mem {plugins : List (List UInt8)} {D : List UInt8} {C : List (List Tok)} {ls : List (List Char)} (h : Pairs (Is plugins D) C ls) :
    ∀ c ∈ C, ∃ l ∈ ls, Is plugins D c l := by
  induction h with
  | nil => simp
  | cons g _ ih =>
    intro c hc
    rcases List.mem_cons.1 hc with rfl | hc
    · exact ⟨_, by simp, g⟩
    · obtain ⟨l, hl, h⟩ := ih c hc
      exact ⟨l, by simp [hl], h⟩

/-- **C85** (blocks), partial: in a source that starts with a listing, literal or passthrough block, the content of the block is what
stands between the delimiter lines, without the empty lines at both ends, the block is closed, and the lines after it are those that are
read next (but for lines with white space only). The lines are without attribute references, attribute entries and directives; no line
in the block could close it, and no line in it has white space only. Lines end with a line feed, or with a carriage return and a line feed.

Missing: lines with white space only (`C85_white_line_violated`), the other lines named above, comment and verse blocks. -/
theorem C85_block_lines_partial (plugins : List (List UInt8)) (nl : List UInt8) (hnl : nl = [10] ∨ nl = [13, 10]) (fence : List Char) (hf : fence ∈ fences)
    (lines after : List (List Char)) (hl : ∀ l ∈ lines, PlainText l ∧ ¬ Closes fence l ∧ (isBlank l = true → l = [])) (ha : ∀ l ∈ after, PlainText l) :
    ∃ b, readBlock plugins none (source nl fence lines after) = some b ∧ b.content.map lineText = trim lines ∧ b.closed = true ∧
      ((b.peeked ++ b.rest).map lineText).filter (!isBlank ·) = after.filter (!isBlank ·) := by
  obtain ⟨O, C, X, A, hC, hA, hO, hX, he⟩ := lexed (plugins := plugins) hnl hf (fun l h => (hl l h).1) ha none
  have hC1 : ∀ c ∈ C, startsDelim (fenceDelim (encode fence)) c = false := by
    intro c hc
    obtain ⟨l, hl', hi⟩ := pairs_mem hC c hc
    cases h : startsDelim (fenceDelim (encode fence)) c with
    | false => rfl
    | true =>
      have := hi.ln.starts.1 h
      rw [hi.bytes] at this
      exact absurd (closes_of this) (hl l hl').2.1
  have hC2 : ∀ c ∈ C, emptyish c = true → c = [] := by
    intro c hc h
    obtain ⟨l, hl', hi⟩ := pairs_mem hC c hc
    exact hi.nil_iff.2 ((hl l hl').2.2 (hi.blank h))
  obtain ⟨a, w, r, hb, hs, hw⟩ := block_plain (A := A) hO hX hC1 hC2
  refine ⟨_, by rw [he, hb], ?_, rfl, ?_⟩
  · simp only
    rw [trim_map, pairs_text hC]
    intro c hc
    obtain ⟨l, hl', hi⟩ := pairs_mem hC c hc
    rw [hi.text]; exact hi.nil_iff
  · simp only
    rw [← pairs_text hA, hs]
    have : (w.map lineText).filter (!isBlank ·) = [] := by
      rw [List.filter_eq_nil_iff]
      intro l hl'
      obtain ⟨x, hx, rfl⟩ := List.mem_map.1 hl'
      obtain ⟨l, _, hi⟩ := pairs_mem hA x (by rw [hs]; simp [hx])
      rw [hi.text]
      simp [hi.blank (hw x hx)]
    simp only [List.map_append, List.filter_append, this, List.append_nil]

/-- a block with empty lines and things that look like blocks, and a paragraph after it -/
example : ∃ b, readBlock [] none (source [10] "----".toList ["".toList, "  é *x*".toList, "".toList, "....".toList, "-----".toList, "".toList] ["p".toList]) = some b ∧
    b.content.map lineText = ["  é *x*".toList, "".toList, "....".toList, "-----".toList] ∧ b.closed = true ∧
    ((b.peeked ++ b.rest).map lineText).filter (!isBlank ·) = ["p".toList] := by
  refine C85_block_lines_partial [] [10] (.inl rfl) _ (by decide) _ _ ?_ ?_
  · have nc : ∀ l : List Char, l ≠ "----".toList → ¬ Closes "----".toList l := by
      rintro l h (h' | ⟨h', _⟩)
      · exact h h'
      · exact absurd h' (by decide)
    have nd : ∀ l : List Char, ':' ∉ l → NoDirective l := by
      intro l hc d hd hi
      have : ':' ∈ d.toList := by
        simp only [List.mem_cons, List.not_mem_nil, or_false] at hd
        rcases hd with rfl | rfl | rfl | rfl | rfl | rfl <;> decide
      exact hc (hi.subset this)
    have key : ∀ l : List Char, ('\n' ∉ l ∧ '\r' ∉ l) → '{' ∉ l → ':' ∉ l → l ≠ "----".toList → (isBlank l = true → l = []) →
        PlainText l ∧ ¬ Closes "----".toList l ∧ (isBlank l = true → l = []) := by
      intro l h1 h2 h3 h4 h5
      exact ⟨⟨h1, h2, fun h => h3 (List.mem_of_mem_head? h), nd l h3⟩, nc l h4, h5⟩
    intro l hl
    simp only [List.mem_cons, List.not_mem_nil, or_false] at hl
    rcases hl with rfl | rfl | rfl | rfl | rfl | rfl <;>
      exact key _ (by decide) (by decide) (by decide) (by decide) (by decide)
  · intro l hl
    simp only [List.mem_cons, List.not_mem_nil, or_false] at hl
    subst hl
    refine ⟨by decide, by decide, by decide, ?_⟩
    intro d hd hi
    have : ':' ∈ d.toList := by
      simp only [List.mem_cons, List.not_mem_nil, or_false] at hd
      rcases hd with rfl | rfl | rfl | rfl | rfl | rfl <;> decide
    exact absurd (hi.subset this) (by decide)

/-- what a source with a block is read as: the content, whether the block is closed, and the lines that come next -/
def seen (indent : Option Nat) (src : String) : Option (List String × Bool × List String) :=
  (readBlock [] indent (bs src)).map fun b =>
    (b.content.map fun l => String.ofList (lineText l), b.closed, (b.peeked ++ b.rest).map fun l => String.ofList (lineText l))

/-- C85 fails for lines with white space only: the first one after a line of text is lost. -/
theorem C85_white_line_violated : seen none "----\na\n  \nb\n----\n" = some (["a", "b"], true, []) ∧
    seen none "----\na\n\nb\n----\n" = some (["a", "", "b"], true, []) := by constructor <;> decide +kernel

/-- C85 fails for three backticks with something after them: the block is not closed, and what follows is lost. -/
theorem C85_backticks_violated : seen none "```\na\n```rust\nb\n```\nc\n\nd\n" = some (["a"], false, ["", "d"]) := by decide +kernel

/-- **C86** (indentation), partial: with `indent=n` the lines of a block are moved together so that they start with `n` spaces. There are
no empty lines in the block, the white space at the start of the lines is spaces, and the block is followed by an empty line or the end.

Missing: blocks with empty lines, with tabulators, and followed by text (`C86_…_violated`). -/
theorem C86_block_indent_partial (plugins : List (List UInt8)) (nl : List UInt8) (hnl : nl = [10] ∨ nl = [13, 10]) (fence : List Char) (hf : fence ∈ fences)
    (lines after : List (List Char)) (m n : Nat) (hl : ∀ l ∈ lines, PlainText l ∧ ¬ Closes fence l ∧ Code l) (hm : Common m lines)
    (ha : ∀ l ∈ after, PlainText l) (hh : after = [] ∨ after.head? = some []) :
    ∃ b, readBlock plugins (some n) (source nl fence lines after) = some b ∧ b.content.map lineText = lines.map (moved m n) ∧ b.closed = true ∧
      (b.peeked ++ b.rest).map lineText = after := by
  obtain ⟨O, C, X, A, hC, hA, hO, hX, he⟩ := lexed (plugins := plugins) hnl hf (fun l h => (hl l h).1) ha (some n)
  have hD := (fence_bytes hf).1
  have hC1 : ∀ c ∈ C, startsDelim (fenceDelim (encode fence)) c = false := by
    intro c hc
    obtain ⟨l, hl', hi⟩ := pairs_mem hC c hc
    cases h : startsDelim (fenceDelim (encode fence)) c with
    | false => rfl
    | true =>
      have := hi.ln.starts.1 h
      rw [hi.bytes] at this
      exact absurd (closes_of this) (hl l hl').2.1
  have hC2 : ∀ c ∈ C, emptyish c = false := by
    intro c hc
    obtain ⟨l, hl', hi⟩ := pairs_mem hC c hc
    cases h : emptyish c with
    | false => rfl
    | true =>
      have := hi.blank h
      obtain ⟨k, x, body, e, hx⟩ := (hl l hl').2.2
      rw [isBlank, List.all_eq_true] at this
      have := this x (by rw [e]; simp)
      rw [hx] at this; cases this
  -- the indentation of a line
  have hli : ∀ c l, l ∈ lines → Is plugins (encode fence) c l → ∃ body, l = List.replicate (lineIndent c) ' ' ++ body ∧ (∀ x ∈ (lineBytes c).takeWhile isSpace, x = 32) ∧ c ≠ [] ∧
      ¬ List.replicate (lineIndent c + 1) ' ' <+: l := by
    intro c l hl' hi
    obtain ⟨k, x, body, e, hx⟩ := (hl l hl').2.2
    have htw := takeWhile_encode (k := k) (body := body) hx
    rw [← e, ← hi.bytes] at htw
    have hk : lineIndent c = k := by rw [lineIndent_eq hi.ln, htw, List.length_replicate]
    refine ⟨x :: body, by rw [hk]; exact e, ?_, ?_, ?_⟩
    · rw [htw]; intro x hx; exact (List.mem_replicate.1 hx).2
    · intro hc
      have := hi.nil_iff.1 hc
      rw [e] at this
      simp at this
    · rw [hk, e, List.replicate_succ']
      intro hp
      have := (List.prefix_append_right_inj _).1 hp
      simp only [List.cons_prefix_cons] at this
      rw [← this.1] at hx
      exact absurd hx (by decide)
  have hmin : indentOf C = m := by
    obtain ⟨l0, hl0, hmost⟩ := hm.most
    have back : ∀ l ∈ lines, ∃ c ∈ C, Is plugins (encode fence) c l := by
      have : ∀ {C : List (List Tok)} {ls : List (List Char)}, Pairs (Is plugins (encode fence)) C ls → ∀ l ∈ ls, ∃ c ∈ C, Is plugins (encode fence) c l := by
        intro C ls h
        induction h with
        | nil => simp
        | cons g _ ih =>
          intro l hl
          rcases List.mem_cons.1 hl with rfl | hl
          · exact ⟨_, by simp, g⟩
          · obtain ⟨c, hc, h⟩ := ih l hl
            exact ⟨c, by simp [hc], h⟩
      exact this hC
    have ge : ∀ c ∈ C, m ≤ lineIndent c := by
      intro c hc
      obtain ⟨l, hl', hi⟩ := pairs_mem hC c hc
      obtain ⟨_, _, _, _, hno⟩ := hli c l hl' hi
      false_or_by_contra
      rename_i hlt
      apply hno
      refine List.IsPrefix.trans ?_ (hm.all l hl')
      exact repl_prefix (by omega)
    obtain ⟨c0, hc0, hi0⟩ := back l0 hl0
    obtain ⟨body, hb0, _, _, _⟩ := hli c0 l0 hl0 hi0
    have le0 : lineIndent c0 ≤ m := by
      false_or_by_contra
      rename_i hlt
      apply hmost
      rw [hb0]
      exact (repl_prefix (by omega)).trans (List.prefix_append _ _)
    cases C with
    | nil => simp at hc0
    | cons c C =>
      obtain ⟨s1, x, hx, s2⟩ := indentOf_spec (c := c) (C := C)
      have := s1 c0 hc0
      have := ge x hx
      omega
  have hset : ∀ c ∈ C, ∀ l ∈ lines, Is plugins (encode fence) c l → lineText (setLineIndent (lineIndent c - m + n) c) = moved m n l := by
    intro c hc l hl' hi
    obtain ⟨body, hb, hsp, hne, _⟩ := hli c l hl' hi
    have hge : m ≤ lineIndent c := by
      cases C with
      | nil => simp at hc
      | cons c' C => rw [← hmin]; exact indentOf_spec.1 c hc
    apply lineText_eq
    have := setLineIndent_bytes hi.ln hne hsp (lineIndent c - m + n)
    rw [lineBytes] at this
    rw [this, hi.bytes]
    have hrep : ∀ k, encode (List.replicate k ' ') = List.replicate k 32 := by
      intro k
      rw [enc_bs (by intro d hd; rw [(List.mem_replicate.1 hd).2]; decide), List.map_replicate]; rfl
    generalize lineIndent c = k at *
    rw [hb, encode_append, hrep, List.drop_left' (by simp), moved, List.drop_append_of_le_length (by simpa using hge), List.drop_replicate, encode_append, encode_append,
      hrep, hrep, ← List.append_assoc, List.replicate_append_replicate]
    congr 2; omega
  have hsetI : ∀ c ∈ C, startsDelim (fenceDelim (encode fence)) (setLineIndent (lineIndent c - m + n) c) = false := by
    intro c hc
    obtain ⟨l, _, hi⟩ := pairs_mem hC c hc
    exact setLineIndent_starts hi.ln (hC1 c hc) _
  have hmap : (setIndent n C).map lineText = lines.map (moved m n) ∧ ∀ c ∈ setIndent n C, startsDelim (fenceDelim (encode fence)) c = false := by
    unfold setIndent
    simp only [hmin]
    split
    · rename_i hmn
      subst hmn
      refine ⟨?_, hC1⟩
      rw [pairs_text hC]
      conv => lhs; rw [← List.map_id lines]
      apply List.map_congr_left
      intro l hl'
      obtain ⟨r, hr⟩ := hm.all l hl'
      rw [moved, ← hr, List.drop_left' (by simp)]
      rfl
    · constructor
      · have : ∀ {C' : List (List Tok)} {ls : List (List Char)}, Pairs (Is plugins (encode fence)) C' ls → (∀ c ∈ C', c ∈ C) → (∀ l ∈ ls, l ∈ lines) →
            (C'.map fun l => if m ≤ lineIndent l then setLineIndent (lineIndent l - m + n) l else l).map lineText = ls.map (moved m n) := by
          intro C' ls h
          induction h with
          | nil => intros; rfl
          | @cons c l _ _ g _ ih =>
            intro h1 h2
            simp only [List.map_cons]
            rw [ih (fun c hc => h1 c (by simp [hc])) (fun l hl => h2 l (by simp [hl]))]
            have hge : m ≤ lineIndent c := by
              have hc := h1 c (by simp)
              cases C with
              | nil => simp at hc
              | cons c' C => rw [← hmin]; exact indentOf_spec.1 c hc
            rw [if_pos hge, hset c (h1 c (by simp)) l (h2 l (by simp)) g]
        exact this hC (fun _ h => h) (fun _ h => h)
      · intro c hc
        obtain ⟨x, hx, rfl⟩ := List.mem_map.1 hc
        split
        · exact hsetI x hx
        · exact hC1 x hx
  have hA' : A = [] ∨ A.head? = some [] := by
    rcases hh with rfl | hh
    · cases hA; exact .inl rfl
    · cases hA with
      | nil => exact .inl rfl
      | cons g _ =>
        simp only [List.head?_cons, Option.some.injEq] at hh
        exact .inr (by rw [List.head?_cons, g.nil_iff.2 hh])
  have hb := block_indent (n := n) hO hX hC2 hA' hmap.2
  refine ⟨_, by rw [he, hb], hmap.1, rfl, ?_⟩
  rw [List.nil_append]
  exact pairs_text hA

/-- code that is moved to the left -/
example : ∃ b, readBlock [] (some 1) (source [10] "....".toList ["    a".toList, "      é".toList, "   ----".toList] []) = some b ∧
    b.content.map lineText = ["  a".toList, "    é".toList, " ----".toList] ∧ b.closed = true ∧ (b.peeked ++ b.rest).map lineText = [] := by
  have nd : ∀ l : List Char, ':' ∉ l → NoDirective l := by
    intro l hc d hd hi
    have : ':' ∈ d.toList := by
      simp only [List.mem_cons, List.not_mem_nil, or_false] at hd
      rcases hd with rfl | rfl | rfl | rfl | rfl | rfl <;> decide
    exact hc (hi.subset this)
  refine C86_block_indent_partial [] [10] (.inl rfl) _ (by decide) _ _ 3 1 ?_ ⟨?_, "   ----".toList, by simp, by decide⟩ (by simp) (.inl rfl)
  · intro l hl
    simp only [List.mem_cons, List.not_mem_nil, or_false] at hl
    rcases hl with rfl | rfl | rfl
    · exact ⟨⟨by decide, by decide, by decide, nd _ (by decide)⟩, by rintro (h | ⟨h, _⟩) <;> exact absurd h (by decide), 4, 'a', [], rfl, by decide⟩
    · exact ⟨⟨by decide, by decide, by decide, nd _ (by decide)⟩, by rintro (h | ⟨h, _⟩) <;> exact absurd h (by decide), 6, 'é', [], rfl, by decide⟩
    · exact ⟨⟨by decide, by decide, by decide, nd _ (by decide)⟩, by rintro (h | ⟨h, _⟩) <;> exact absurd h (by decide), 3, '-', "---".toList, rfl, by decide⟩
  · intro l hl
    simp only [List.mem_cons, List.not_mem_nil, or_false] at hl
    rcases hl with rfl | rfl | rfl <;> decide

/-- C86 fails for a block with an empty line: the lines are not moved to the left, and the last line is not moved at all. -/
theorem C86_empty_line_violated : seen (some 0) "----\n  a\n\n  b\n----\n" = some (["  a", "", "  b"], true, []) ∧
    seen (some 4) "----\na\n\nb\n----\n" = some (["    a", "", "b"], true, []) := by constructor <;> decide +kernel

/-- C86 fails for a block with text in the line after it: the lines are not moved to the left; moved to the right, the closing
delimiter is moved too and does not close the block any more. -/
theorem C86_text_after_violated : seen (some 0) "----\n  a\n----\nb\n" = some (["  a"], true, ["b"]) ∧
    seen (some 4) "----\na\n----\nb\n" = some (["    a", "    ----", "b"], false, []) := by constructor <;> decide +kernel

/-- C86 fails for tabulators, which are kept in the place of spaces: a line with one tabulator is moved as if it were one space, and a
tabulator at the start is kept. -/
theorem C86_tabs_violated : seen (some 1) "----\n\t\ta\n  b\n----\n" = some (["\ta", " b"], true, []) := by decide +kernel

/-- the text of a token is what its place in the source says -/
def Stands (src : List UInt8) (t : Tok) : Prop := t.start ≤ t.stop ∧ t.stop ≤ src.length ∧ (src.drop t.start).take (t.stop - t.start) = t.lexeme

/-- **C86** (locations): lines that are moved stay where they are in the source. Each token is still the text at its place in the
source; only where white space is added, it is the white space there with the added spaces. -/
theorem C86_locations (src : List UInt8) (n : Nat) (ls : List (List Tok)) (h : ∀ l ∈ ls, ∀ t ∈ l, Stands src t)
    (hs : ∀ l ∈ ls, ∀ t ∈ l.head?, t.kind = .Whitespace → ∀ b ∈ t.lexeme, b = 32) :
    ∀ l ∈ setIndent n ls, ∀ t ∈ l, Stands src t ∨
      n > indentOf ls ∧ t.kind = .Whitespace ∧ t.start ≤ t.stop ∧ (src.drop t.start).take (t.stop - t.start) <+: t.lexeme ∧ ∀ b ∈ t.lexeme, b = 32 := by
  intro l hl t ht
  unfold setIndent at hl
  simp only at hl
  split at hl
  · exact .inl (h l hl t ht)
  rename_i hne
  obtain ⟨l0, hl0, rfl⟩ := List.mem_map.1 hl
  split at ht
  case isFalse => exact .inl (h l0 hl0 t ht)
  rename_i hle
  cases l0 with
  | nil => simp [setLineIndent] at ht
  | cons u us =>
    have hu := h _ hl0 u (by simp)
    have hus : ∀ t ∈ us, Stands src t := fun t ht => h _ hl0 t (by simp [ht])
    generalize hk : lineIndent (u :: us) - indentOf ls + n = k at ht
    rw [setLineIndent] at ht
    simp only [lineIndent] at hk hle
    by_cases hw : u.kind = .Whitespace
    · have hsp := hs _ hl0 u rfl hw
      rw [if_pos hw] at hk hle
      have hrep : u.lexeme = List.replicate u.lexeme.length 32 := List.eq_replicate_iff.2 ⟨rfl, hsp⟩
      have hlen : u.stop - u.start = u.lexeme.length := by
        have := congrArg List.length hu.2.2
        rw [List.length_take, List.length_drop] at this
        have := hu.1; have := hu.2.1
        omega
      split at ht
      · rename_i hlt
        split at ht
        · exact .inl (hus t ht)
        · rcases List.mem_cons.1 ht with rfl | ht
          · refine .inl ⟨?_, hu.2.1, ?_⟩
            · simp only; have := hu.1; omega
            · simp only
              have e : u.stop - (u.start + (u.lexeme.length - k)) = k := by have := hu.1; omega
              rw [e]
              have : ((src.drop u.start).take (u.stop - u.start)).drop (u.lexeme.length - k) = u.lexeme.drop (u.lexeme.length - k) := by rw [hu.2.2]
              rw [List.drop_take, List.drop_drop, hlen] at this
              rw [show u.lexeme.length - (u.lexeme.length - k) = k by omega] at this
              rw [this]
              generalize u.lexeme.length = m at hrep hlt
              rw [hrep, List.drop_replicate, List.take_replicate]
              congr 1
              omega
          · exact .inl (hus t ht)
      · rename_i hnl
        split at ht
        · rename_i hgt
          rcases List.mem_cons.1 ht with rfl | ht
          · refine .inr ⟨by omega, hw, hu.1, ?_, ?_⟩
            · simp only
              rw [hu.2.2]
              exact List.prefix_append _ _
            · intro b hb
              rcases List.mem_append.1 hb with hb | hb
              · exact hsp b hb
              · exact (List.mem_replicate.1 hb).2
          · exact .inl (hus t ht)
        · rw [if_neg (fun h => h.1 hw)] at ht
          rcases List.mem_cons.1 ht with rfl | ht
          · exact .inl hu
          · exact .inl (hus t ht)
    · rw [if_neg hw] at hk hle
      rw [if_neg (fun h => hw h.1), if_neg (fun h => hw h.1)] at ht
      split at ht
      · rcases List.mem_cons.1 ht with rfl | ht
        · refine .inr ⟨by omega, rfl, Nat.le_refl _, ?_, ?_⟩
          · simp
          · intro b hb
            exact (List.mem_replicate.1 hb).2
        · rcases List.mem_cons.1 ht with rfl | ht
          · exact .inl hu
          · exact .inl (hus t ht)
      · rcases List.mem_cons.1 ht with rfl | ht
        · exact .inl hu
        · exact .inl (hus t ht)

example : setIndent 1 [[⟨.Whitespace, 0, 3, [32, 32, 32]⟩, ⟨.Word, 3, 4, bs "a"⟩]] = [[⟨.Whitespace, 2, 3, [32]⟩, ⟨.Word, 3, 4, bs "a"⟩]] ∧
    Stands (bs "   a") ⟨.Whitespace, 0, 3, [32, 32, 32]⟩ ∧ Stands (bs "   a") ⟨.Whitespace, 2, 3, [32]⟩ := by
  unfold Stands
  decide

end Verif.Props

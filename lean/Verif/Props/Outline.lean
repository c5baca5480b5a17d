import Verif.Lemmas.Outline
import Verif.Props.Sections
import Verif.Props.Toc
import Verif.Props.Complaints
/-! C91: from the text of an outline to its sections. -/
namespace Verif.Props
open Verif Verif.Lexer Verif.LineKinds Verif.Sections Verif.Spec.Sections Verif.Outline
open Verif.Directives (encode)

private theorem start {plugins : List (List UInt8)} {word : Char → Bool} {nl : List UInt8} (hnl : nl = [10] ∨ nl = [13, 10]) {chunks : List Chunk}
    (hok : ∀ c ∈ chunks, c.Ok) (hne : ∀ c ∈ chunks, c.lines ≠ []) (htitle : ∀ c ∈ chunks.head?, ∀ h ∈ c.heads.head?, h.level ≠ 0)
    {lines : List (List Char)} (hlaid : Laid (chunks.map Chunk.lines) lines) :
    ∃ trailing, ∀ env, readOutline env plugins word (lines.flatMap (encode · ++ nl)) =
      some ((chunks.flatMap Chunk.entries).map Prod.snd, parseDoc env (chunked 0 chunks) trailing false) := by
  have hchars : ∀ c ∈ chunks, ∀ l ∈ c.lines, ('\n' ∉ l ∧ '\r' ∉ l) ∧ ∃ x ∈ encode l, isSpace x = false := by
    intro c hc l hl
    rcases List.mem_append.1 hl with hl | hl
    · obtain ⟨h, hh, rfl⟩ := List.mem_map.1 hl
      obtain ⟨o1, o2, o3, o4⟩ := (hok c hc).heads h hh
      refine ⟨⟨o3, o4⟩, ?_⟩
      obtain ⟨mark, hm, sp, e, _⟩ := o1
      refine ⟨mark, by rw [e, List.replicate_succ]; simp, ?_⟩
      simp only [List.mem_cons, List.not_mem_nil, or_false] at hm
      rcases hm with rfl | rfl <;> decide
    · have h := (hok c hc).para l hl
      refine ⟨⟨fun hc => h.chars _ hc (by simp), fun hc => h.chars _ hc (by simp)⟩, ?_⟩
      obtain ⟨c, hc, hh⟩ := h.first
      cases l with
      | nil => cases hh
      | cons c' l =>
        cases hh
        obtain ⟨b, l', e, hb⟩ := tight_encode (text := [c]) (by simp) (by rintro x hx; cases hx; exact (by decide : ∀ c ∈ letters, c ∉ whites) _ hc)
        refine ⟨b, ?_, hb⟩
        rw [show c :: l = [c] ++ l from rfl, Directives.encode_append, e]
        simp
  have hcl : ∀ l ∈ lines, '\n' ∉ l ∧ '\r' ∉ l := by
    intro l hl
    rcases laid_mem hlaid l hl with rfl | ⟨c, hc, hlc⟩
    · simp
    · obtain ⟨d, hd, rfl⟩ := List.mem_map.1 hc
      exact (hchars d hd l hlc).1
  obtain ⟨tokss, h1, h2⟩ := lexed_lines (plugins := plugins) hnl hcl
  have hch := chunks_laid hlaid (tokss.length + 1) (Nat.lt_succ_self _) (by
    intro c hc l hlc
    obtain ⟨d, hd, rfl⟩ := List.mem_map.1 hc
    exact (hchars d hd l hlc).2) h2
  refine ⟨(tokss.getLast?).any Verbatim.emptyish, fun env => ?_⟩
  rw [readOutline, h1]
  simp only [Option.bind_some]
  rw [outline_items chunks 0 hch hok]
  simp only [Option.bind_some]
  rw [itemised_titled chunks hne htitle, itemised_texts, itemised_chunks]
  rfl

/-- C91: a text of headings and paragraphs, with empty lines between its chunks, becomes a document with exactly these headings and
paragraphs in their order. Each heading is a section with the level it is written with, and every section has only deeper ones in it. -/
theorem C91_outline (env : Env) (hb : env.book = false) (hs : env.strict = false) (plugins : List (List UInt8)) (word : Char → Bool)
    (nl : List UInt8) (hnl : nl = [10] ∨ nl = [13, 10]) (chunks : List Chunk)
    (hok : ∀ c ∈ chunks, c.Ok) (hne : ∀ c ∈ chunks, c.lines ≠ []) (htitle : ∀ c ∈ chunks.head?, ∀ h ∈ c.heads.head?, h.level ≠ 0)
    (lines : List (List Char)) (hlaid : Laid (chunks.map Chunk.lines) lines) :
    ∃ d st, readOutline env plugins word (lines.flatMap (encode · ++ nl)) = some ((chunks.flatMap Chunk.entries).map Prod.snd, .ok (d, st)) ∧
      docItems d = numbered 0 (chunks.flatMap Chunk.entries) ∧
      levelsAll (topSections d) = (chunks.flatMap Chunk.heads).map Head.level ∧
      ∀ b ∈ topSections d, nested b := by
  obtain ⟨trailing, h⟩ := start (plugins := plugins) (word := word) hnl hok hne htitle hlaid
  cases hp : parseDoc env (chunked 0 chunks) trailing false with
  | error f =>
    exfalso
    cases f with
    | diag e => exact doc_lenient hs hb _ _ _ _ hp
    | panic => exact C32_default_never_fails_partial env _ _ _ (.inl rfl) hp
    | diverged => exact C33_terminates env _ _ _ hp
  | ok r =>
    obtain ⟨d, st⟩ := r
    have hsrc := chunked_items 0 chunks
    have hi : docItems d = numbered 0 (chunks.flatMap Chunk.entries) := by
      rw [C33_nothing_lost_partial hb (.inr (by
        intro k hk
        rw [hsrc] at hk
        exact (numbered_plain _ _ _ hk).1 k rfl)) hp, hsrc]
    obtain ⟨_, t1, t2⟩ := doc_tidy hb hp
    refine ⟨d, st, by rw [h, hp], hi, ?_, C33_deeper hp⟩
    rw [levelsAll_eq _ t1 (by rw [← t2, hi]; exact numbered_plain _ _), ← t2, hi, numbered_levels]
    clear t2 t1 hi hsrc hp h hlaid htitle hne hok
    induction chunks with
    | nil => rfl
    | cons c cs ih =>
      rw [List.flatMap_cons, List.flatMap_cons, List.filterMap_append, List.map_append, ih]
      congr 1
      unfold Chunk.entries
      rw [List.filterMap_append]
      have : ∀ hs : List Head, (hs.map fun h => (some h.level, [h.title])).filterMap Prod.fst = hs.map Head.level := by
        intro hs
        induction hs with
        | nil => rfl
        | cons x hs ih => simp [ih]
      rw [this]
      split <;> simp

/-- C91 (strict mode): the same text in strict mode gives the same document, or stops at the first thing that is wrong with its
headings. -/
theorem C91_strict (toclevels : Nat) (plugins : List (List UInt8)) (word : Char → Bool)
    (nl : List UInt8) (hnl : nl = [10] ∨ nl = [13, 10]) (chunks : List Chunk)
    (hok : ∀ c ∈ chunks, c.Ok) (hne : ∀ c ∈ chunks, c.lines ≠ []) (htitle : ∀ c ∈ chunks.head?, ∀ h ∈ c.heads.head?, h.level ≠ 0)
    (lines : List (List Char)) (hlaid : Laid (chunks.map Chunk.lines) lines) :
    ∃ d st texts, readOutline ⟨false, false, toclevels⟩ plugins word (lines.flatMap (encode · ++ nl)) = some (texts, .ok (d, st)) ∧
      st.errs = docComplaints d ∧
      readOutline ⟨true, false, toclevels⟩ plugins word (lines.flatMap (encode · ++ nl)) = some (texts, match docComplaints d with
        | [] => .ok (d, st)
        | e :: _ => .error (.diag e)) := by
  obtain ⟨d, st, h1, _⟩ := C91_outline ⟨false, false, toclevels⟩ rfl rfl plugins word nl hnl chunks hok hne htitle lines hlaid
  refine ⟨d, st, _, h1, ?_⟩
  obtain ⟨tr, k⟩ := start (plugins := plugins) (word := word) hnl hok hne htitle hlaid
  rw [k] at h1
  have h1 := (Prod.mk.inj (Option.some.inj h1)).2
  refine ⟨C87_reports h1, ?_⟩
  rw [k, C87_strict h1]
  cases docComplaints d <;> rfl

/-- C91 (rendering): when no heading has more than seven marks, each section becomes a `div` with its level in the class, and a
heading one level down. -/
theorem C91_rendered (env : Env) (hb : env.book = false) (hs : env.strict = false) (plugins : List (List UInt8)) (word : Char → Bool)
    (nl : List UInt8) (hnl : nl = [10] ∨ nl = [13, 10]) (chunks : List Chunk)
    (hok : ∀ c ∈ chunks, c.Ok) (hne : ∀ c ∈ chunks, c.lines ≠ []) (htitle : ∀ c ∈ chunks.head?, ∀ h ∈ c.heads.head?, h.level ≠ 0)
    (lines : List (List Char)) (hlaid : Laid (chunks.map Chunk.lines) lines)
    (hlev : ∀ h ∈ chunks.flatMap Chunk.heads, h.level ≤ 6) :
    ∃ d st texts, readOutline env plugins word (lines.flatMap (encode · ++ nl)) = some (texts, .ok (d, st)) ∧
      docTags d = some ((chunks.flatMap Chunk.heads).map fun h => ("sect" ++ toString h.level, "h" ++ toString (h.level + 1))) := by
  obtain ⟨d, st, h1, _, h3, _⟩ := C91_outline env hb hs plugins word nl hnl chunks hok hne htitle lines hlaid
  refine ⟨d, st, _, h1, ?_⟩
  obtain ⟨tr, k⟩ := start (plugins := plugins) (word := word) hnl hok hne htitle hlaid
  rw [k] at h1
  have h1 := (Prod.mk.inj (Option.some.inj h1)).2
  rw [docTags_eq (doc_tidy hb h1).1, h3, tagsOf_some, List.map_map]
  · rfl
  · intro l hl
    obtain ⟨h, hh, rfl⟩ := List.mem_map.1 hl
    exact hlev h hh

/-- C91 (rendering, deeper headings): a heading with more than seven marks always ends the program when the document is rendered. -/
theorem C91_deep_heading_panics (env : Env) (hb : env.book = false) (hs : env.strict = false) (plugins : List (List UInt8)) (word : Char → Bool)
    (nl : List UInt8) (hnl : nl = [10] ∨ nl = [13, 10]) (chunks : List Chunk)
    (hok : ∀ c ∈ chunks, c.Ok) (hne : ∀ c ∈ chunks, c.lines ≠ []) (htitle : ∀ c ∈ chunks.head?, ∀ h ∈ c.heads.head?, h.level ≠ 0)
    (lines : List (List Char)) (hlaid : Laid (chunks.map Chunk.lines) lines)
    (h : Head) (hh : h ∈ chunks.flatMap Chunk.heads) (hlev : 6 < h.level) :
    ∃ d st texts, readOutline env plugins word (lines.flatMap (encode · ++ nl)) = some (texts, .ok (d, st)) ∧ docTags d = none := by
  obtain ⟨d, st, h1, _, h3, _⟩ := C91_outline env hb hs plugins word nl hnl chunks hok hne htitle lines hlaid
  refine ⟨d, st, _, h1, ?_⟩
  obtain ⟨tr, k⟩ := start (plugins := plugins) (word := word) hnl hok hne htitle hlaid
  rw [k] at h1
  have h1 := (Prod.mk.inj (Option.some.inj h1)).2
  rw [docTags_eq (doc_tidy hb h1).1, h3]
  exact tagsOf_none (List.mem_map.2 ⟨h, hh, rfl⟩) hlev

private def deep (n : Nat) : List (List Char) := (List.range n).map fun k => List.replicate (k + 2) '=' ++ " a".toList

private def source (lines : List (List Char)) : List UInt8 := lines.flatMap (encode · ++ [10])

/-- **C91 violated**: sections may be nested seven deep without any complaint, also in strict mode, but the document cannot be
rendered: the program panics. -/
theorem C91_deep_heading_violated :
    (readOutline ⟨true, false, 2⟩ [] (fun _ => false) (source (deep 7))).any (fun r => match r.2 with
      | .ok (d, st) => st.errs == [] && docTags d == none
      | _ => false) = true := by
  decide +kernel

/-- **C91 violated**: a section six deep, accepted in strict mode, has a heading element HTML does not have. -/
theorem C91_seventh_heading_violated :
    (readOutline ⟨true, false, 2⟩ [] (fun _ => false) (source (deep 6))).any (fun r => match r.2 with
      | .ok (d, st) => st.errs == [] && (docTags d).any (·.any fun t => !htmlHeadings.contains t.2)
      | _ => false) = true := by
  decide +kernel

section
private def exChunks : List Chunk :=
  [⟨[], ["Some text".toList, "more".toList]⟩, ⟨[⟨"== One".toList, 1, "One".toList⟩], ["text é".toList]⟩,
    ⟨[⟨"### Two".toList, 2, "Two".toList⟩, ⟨"==  Three".toList, 1, "Three".toList⟩], []⟩]

private def exLines : List (List Char) :=
  ["Some text".toList, "more".toList, [], [], "== One".toList, "text é".toList, [], "### Two".toList, "==  Three".toList]

private theorem exText {l : List Char} (h1 : ∃ c ∈ letters, l.head? = some c) (h2 : ∀ c ∈ l, c ∉ ['\n', '\r', '{', '@', ':', ';']) : TextLine l := by
  refine ⟨h1, fun c hc h => h2 c hc (by simp at h ⊢; rcases h with h | h | h | h <;> simp [h]), fun hc => h2 ':' ((List.takeWhile_prefix _).subset hc) (by simp), ?_, ?_⟩
  · rintro ⟨a, b, e⟩
    exact h2 ':' (by rw [← e]; simp) (by simp)
  · rintro ⟨a, b, e⟩
    exact h2 ';' (by rw [← e]; simp) (by simp)

private theorem exOk : ∀ c ∈ exChunks, c.Ok := by
  intro c hc
  simp only [exChunks, List.mem_cons, List.not_mem_nil, or_false] at hc
  rcases hc with rfl | rfl | rfl
  · refine ⟨by simp, ?_⟩
    intro l hl
    simp only [List.mem_cons, List.not_mem_nil, or_false] at hl
    rcases hl with rfl | rfl
    · exact exText ⟨'S', by decide, rfl⟩ (by decide)
    · exact exText ⟨'m', by decide, rfl⟩ (by decide)
  · refine ⟨?_, ?_⟩
    · intro h hh
      simp only [List.mem_cons, List.not_mem_nil, or_false] at hh
      subst hh
      exact ⟨⟨ch '=', by decide, [32], by decide, by decide, by unfold Blank; decide, by decide, by unfold Tight; decide⟩, by decide, by decide, by decide⟩
    · intro l hl
      simp only [List.mem_cons, List.not_mem_nil, or_false] at hl
      subst hl
      exact exText ⟨'t', by decide, rfl⟩ (by decide)
  · refine ⟨?_, by simp⟩
    intro h hh
    simp only [List.mem_cons, List.not_mem_nil, or_false] at hh
    rcases hh with rfl | rfl
    · exact ⟨⟨ch '#', by decide, [32], by decide, by decide, by unfold Blank; decide, by decide, by unfold Tight; decide⟩, by decide, by decide, by decide⟩
    · exact ⟨⟨ch '=', by decide, [32, 32], by decide, by decide, by unfold Blank; decide, by decide, by unfold Tight; decide⟩, by decide, by decide, by decide⟩

private theorem exLaid : Laid (exChunks.map Chunk.lines) exLines :=
  .cons (chunk := ["Some text".toList, "more".toList]) (by decide) (.blank (.cons (chunk := ["== One".toList, "text é".toList]) (by decide)
    (.last (by decide))))

example : ∃ d st texts, readOutline ⟨false, false, 2⟩ [] (fun _ => false) (source exLines) = some (texts, .ok (d, st)) ∧
    docTags d = some [("sect1", "h2"), ("sect2", "h3"), ("sect1", "h2")] :=
  C91_rendered ⟨false, false, 2⟩ rfl rfl [] _ [10] (.inl rfl) exChunks exOk (by decide) (by decide) exLines exLaid (by decide)
end

end Verif.Props

import Verif.Lemmas.BookStrict
/-! C33: sections nest and nothing is lost. -/
namespace Verif.Props
open Verif.Sections Verif.Spec.Sections

private theorem size_eq (chunks : List (Item × List Item)) : (sourceItems chunks).length = size chunks := by
  induction chunks with
  | nil => rfl
  | cons c cs ih =>
    simp only [sourceItems, size, List.map_cons, List.flatten_cons, List.length_append, List.length_cons, List.sum_cons] at ih ⊢
    omega

private theorem article {env : Env} {chunks : List (Item × List Item)} {trailing toc : Bool} {doc : Doc} {st : St}
    (hb : env.book = false) (h : parseDoc env chunks trailing toc = .ok (doc, st)) :
    ∃ pre secs, parseSectioned env (size chunks + 2) { rest := chunks, trailing, toc := if toc then some [] else none } = .ok ((pre, secs), st) ∧
      doc = if secs.isEmpty then .blocks pre else .sections pre secs := by
  unfold parseDoc at h
  simp only [hb] at h
  simp only [Bool.false_eq_true, if_false] at h
  split at h
  · cases h
  · rename_i pre secs s hs
    injection h with h; injection h with h1 h2
    subst h2
    exact ⟨pre, secs, hs, h1.symm⟩

private theorem book {env : Env} {chunks : List (Item × List Item)} {trailing toc : Bool} (hb : env.book = true) :
    parseDoc env chunks trailing toc = parseBook env (size chunks + 2) (size chunks + 2)
      { rest := chunks, trailing, toc := if toc then some [] else none } := by
  unfold parseDoc; simp [hb]

private theorem todo_start (chunks : List (Item × List Item)) (trailing : Bool) (toc : Option (List Toc)) :
    todo { rest := chunks, trailing, toc } = sourceItems chunks := rfl

/-- **C33** (no endless loop): parsing the block structure of any source ends. -/
theorem C33_terminates (env : Env) (chunks : List (Item × List Item)) (trailing toc : Bool) :
    parseDoc env chunks trailing toc ≠ .error .diverged := by
  cases hb : env.book with
  | true =>
    rw [book hb]
    refine book_total _ _ _ _ rfl rfl ?_ (.inl ?_) <;> (rw [todo_start, size_eq]; omega)
  | false =>
    intro h
    unfold parseDoc at h
    simp only [hb] at h
    simp only [Bool.false_eq_true, if_false] at h
    split at h
    · rename_i f hf
      injection h with h; subst h
      refine sectioned_total ?_ hf
      rw [todo_start, size_eq]; omega
    · cases h

/-- **C33** (nesting): in every parsed document, articles and books, strict or
not, each section contains only sections deeper than itself. -/
theorem C33_deeper {env : Env} {chunks : List (Item × List Item)} {trailing toc : Bool} {doc : Doc} {st : St}
    (h : parseDoc env chunks trailing toc = .ok (doc, st)) : ∀ b ∈ topSections doc, nested b := by
  cases hb : env.book with
  | true =>
    rw [book hb] at h
    exact (book_post _ _ _ _ _ _ rfl rfl h).2.2
  | false =>
    obtain ⟨pre, secs, hs, hdoc⟩ := article hb h
    obtain ⟨s1, h1, h2⟩ := sectioned_ok hs
    have hpre := nested_all (blocks_deeper h1)
    have hsec : ∀ b ∈ secs, nested b := by
      intro b hb
      obtain ⟨i, l, inner, e, h3, _⟩ := sections_nested h2 b hb
      subst e; exact h3
    intro b hb
    subst hdoc
    split at hb
    · exact hpre b hb
    · rcases List.mem_append.mp hb with hb | hb
      · exact hpre b hb
      · exact hsec b hb

/-- **C33** (levels in strict mode): a document accepted in strict mode skips no
level: every section is exactly one level below what contains it. -/
theorem C33_stepwise {env : Env} {chunks : List (Item × List Item)} {trailing toc : Bool} {doc : Doc} {st : St}
    (hst : env.strict = true) (h : parseDoc env chunks trailing toc = .ok (doc, st)) : stepwiseAll 0 (topSections doc) := by
  refine stepwiseAll_of ?_
  cases hb : env.book with
  | true =>
    rw [book hb] at h
    exact book_stepwise hst _ _ _ _ _ rfl rfl h
  | false =>
    obtain ⟨pre, secs, hs, hdoc⟩ := article hb h
    obtain ⟨s1, h1, h2⟩ := sectioned_ok hs
    have hpre := of_stepwiseAll (blocks_stepwise hst h1)
    have hsec := sections_stepwise hst (blocks_le h1).level h2
    intro b hb
    subst hdoc
    split at hb
    · exact hpre b hb
    · rcases List.mem_append.mp hb with hb | hb
      · exact hpre b hb
      · exact hsec b hb

/-- **C33** (nothing lost, order kept) for articles: in strict mode, or in the
absence of delimited blocks, the tree read in order is the source. -/
theorem C33_nothing_lost_partial {env : Env} {chunks : List (Item × List Item)} {trailing toc : Bool} {doc : Doc} {st : St}
    (hb : env.book = false) (hs : env.strict = true ∨ ∀ k, Item.delim k ∉ sourceItems chunks)
    (h : parseDoc env chunks trailing toc = .ok (doc, st)) : docItems doc = sourceItems chunks := by
  obtain ⟨pre, secs, hsec, hdoc⟩ := article hb h
  have post := sectioned_post hsec
  have hi := post.items hs
  have hend : todo st = [] := by
    rcases post.stop rfl rfl with ⟨h1, _⟩ | ⟨h1, _⟩
    · exact h1
    · rw [hb] at h1; cases h1
  rw [hend, List.append_nil] at hi
  subst hdoc
  split
  · rename_i he
    have : secs = [] := by cases secs <;> simp_all
    subst this
    rw [todo_start] at hi
    simpa [docItems, itemsAll] using hi
  · exact hi

/-- **C33** for books: what is parsed is an initial part of the source in the
source's order; if something is left out, it begins at a heading of level 0 or 1. -/
theorem C33_book_prefix_partial {env : Env} {chunks : List (Item × List Item)} {trailing toc : Bool} {doc : Doc} {st : St}
    (hb : env.book = true) (hs : env.strict = true ∨ ∀ k, Item.delim k ∉ sourceItems chunks)
    (h : parseDoc env chunks trailing toc = .ok (doc, st)) :
    ∃ lost, docItems doc ++ lost = sourceItems chunks ∧
      (lost = [] ∨ ∃ l t sp d rest, lost = .heading l t sp d :: rest ∧ l ≤ 1) := by
  rw [book hb] at h
  obtain ⟨h1, h2, _⟩ := book_post _ _ _ _ _ _ rfl rfl h
  exact ⟨todo st, h1 hs, h2⟩

/-- **C33** for books without special sections that begin with a heading and
whose parts, if any, start at once: nothing is lost. -/
theorem C33_book_no_loss_partial {env : Env} {chunks : List (Item × List Item)} {trailing toc : Bool} {doc : Doc} {st : St}
    (hb : env.book = true) (hs : env.strict = true ∨ ∀ k, Item.delim k ∉ sourceItems chunks)
    (hsp : ∀ l t sp d, Item.heading l t sp d ∈ sourceItems chunks → sp = none)
    {l t : Nat} {sp : Option SpecialSection} {d : Bool} {rest : List Item} (hfirst : sourceItems chunks = .heading l t sp d :: rest)
    (hcase : l = 0 ∨ ∀ t' sp' d', Item.heading 0 t' sp' d' ∉ sourceItems chunks)
    (h : parseDoc env chunks trailing toc = .ok (doc, st)) : docItems doc = sourceItems chunks := by
  rw [book hb] at h
  have h1 := (book_post _ _ _ _ _ _ rfl rfl h).1 hs
  have h2 := book_complete (st := { rest := chunks, trailing, toc := if toc then some [] else none }) rfl rfl hfirst hs hsp hcase h
  rw [h2, List.append_nil] at h1
  exact h1

/-! ### violations -/

private def h (l t : Nat) : Item := .heading l t none false

/-- **C33 violated** outside strict mode: a heading inside an example block that
belongs outside of it ends the block and its whole chunk is dropped. Source:
`== 1`, `=== 2`, `====`, `=== 3` with its paragraph, `====`. -/
theorem C33_delimiter_drops_violated :
    ∃ doc st, parseDoc ⟨false, false, 2⟩ [(h 1 1, []), (h 2 2, []), (.delim 4, []), (h 2 3, [.para 5]), (.delim 4, [])] false false
      = .ok (doc, st) ∧ h 2 3 ∉ docItems doc ∧ Item.para 5 ∉ docItems doc :=
  ⟨_, _, rfl, by decide, by decide⟩

/-- In strict mode the same source is refused with the complaint that the block
was never closed, although it was. -/
theorem C33_delimiter_complaint_violated :
    parseDoc ⟨true, false, 2⟩ [(h 1 1, []), (h 2 2, []), (.delim 4, []), (h 2 3, [.para 5]), (.delim 4, [])] false false
      = .error (.diag (.unclosed 4)) := rfl

/-- **C33 violated** in strict mode: a book starting with a chapter loses every
part after it, without a diagnostic. -/
theorem C33_book_part_lost_violated :
    ∃ doc st, parseDoc ⟨true, true, 2⟩ [(h 1 1, []), (h 0 2, []), (h 1 3, [])] true false = .ok (doc, st) ∧
      docItems doc = [h 1 1] ∧ st.errs = [] :=
  ⟨_, _, rfl, rfl, rfl⟩

/-- A chapter or part that follows the appendix after the parts is lost too. -/
theorem C33_book_after_appendix_violated :
    ∃ doc st, parseDoc ⟨true, true, 2⟩
        [(h 0 1, []), (h 1 2, []), (.heading 0 3 (some .preface) false, [.para 9]), (h 0 4, []), (h 1 5, [])] true false = .ok (doc, st) ∧
      docItems doc = [h 0 1, h 1 2, .heading 0 3 (some .preface) false, .para 9] ∧ st.errs = [] :=
  ⟨_, _, rfl, rfl, rfl⟩

/-- A heading that is the last chunk of a book with a preamble is lost when no
blank line follows, and kept when one does. -/
theorem C33_book_last_heading_violated :
    (∃ doc st, parseDoc ⟨true, true, 2⟩ [(.para 1, []), (h 1 2, [.para 3])] false false = .ok (doc, st) ∧
      docItems doc = [.para 1]) ∧
    (∃ doc st, parseDoc ⟨true, true, 2⟩ [(.para 1, []), (h 1 2, [.para 3])] true false = .ok (doc, st) ∧
      docItems doc = [.para 1, h 1 2, .para 3]) :=
  ⟨⟨_, _, rfl, rfl⟩, ⟨_, _, rfl, rfl⟩⟩

/-! ### the hypotheses are met -/

example : ∃ doc st, parseDoc ⟨true, false, 2⟩
    [(.para 1, []), (h 1 2, [.para 3]), (.delim 4, [.para 5, .delim 4]), (h 2 6, [h 3 7]), (h 2 8, []), (h 1 9, [])] false true = .ok (doc, st) ∧
    docItems doc = [.para 1, h 1 2, .para 3, .delim 4, .para 5, .delim 4, h 2 6, h 3 7, h 2 8, h 1 9] :=
  ⟨_, _, rfl, rfl⟩

example : ∃ doc st, parseDoc ⟨false, false, 2⟩ [(h 1 2, [.para 3]), (h 4 6, [h 3 7]), (h 2 8, [])] false true = .ok (doc, st) ∧
    st.errs = [.outOfSequence 6, .outOfSequence 7] :=
  ⟨_, _, rfl, rfl⟩

example : ∃ doc st, parseDoc ⟨true, true, 2⟩
    [(h 0 1, []), (.para 2, []), (h 1 3, [h 2 4]), (h 0 5, []), (h 1 6, [])] false true = .ok (doc, st) ∧
    docItems doc = [h 0 1, .para 2, h 1 3, h 2 4, h 0 5, h 1 6] :=
  ⟨_, _, rfl, rfl⟩

example : ∃ doc st, parseDoc ⟨true, true, 2⟩ [(h 1 3, [h 2 4]), (h 1 6, [.para 7])] false true = .ok (doc, st) ∧
    docItems doc = [h 1 3, h 2 4, h 1 6, .para 7] :=
  ⟨_, _, rfl, rfl⟩

end Verif.Props

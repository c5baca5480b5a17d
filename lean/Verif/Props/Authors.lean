import Verif.Lemmas.Authors
import Verif.Model.SpecialSect
namespace Verif.Props
open Verif DocumentMeta

/-- C22: adding any list of authors to a document without author attributes records them in order; the
attributes numbered `i+1` describe the `i`-th author, the unnumbered ones the first, and `authors` is the
comma separated list of full names. -/
theorem C22_author_attributes (m m' : DocumentMeta) (as : List Author)
    (h0 : m.authors = [])
    (h1 : ∀ k, "author".toList <+: k.toList ∨ "email".toList <+: k.toList ∨ "lastname".toList <+: k.toList
      ∨ "middlename".toList <+: k.toList ∨ "firstname".toList <+: k.toList → m.headerAttrs k = none)
    (hadd : as.foldlM addAuthor m = some m') :
    m'.authors = as ∧
    (∀ i a, as[i]? = some a → ∀ b v, (b, v) ∈ a.specFields →
      m'.headerAttrs (b ++ "_" ++ toString (i + 1)) = v.map AttrValue.string) ∧
    (∀ a, as.head? = some a → ∀ b v, (b, v) ∈ a.specFields →
      m'.headerAttrs b = v.map AttrValue.string) ∧
    (as ≠ [] → m'.headerAttrs "authors" = some (.string (joinSep ", " (as.map Author.specFullname)))) := by
  have pre : ∀ (a : Author) p, p ∈ a.specFields → ∀ s, m.headerAttrs (p.1 ++ s) = none := by
    intro a p hp s
    refine h1 _ ?_
    simp only [Author.specFields, List.mem_cons, List.not_mem_nil, or_false] at hp
    rw [String.toList_append]
    rcases hp with rfl | rfl | rfl | rfl | rfl | rfl
    · exact .inl (List.prefix_append _ _)
    · exact .inr (.inl (List.prefix_append _ _))
    · exact .inr (.inr (.inl (List.prefix_append _ _)))
    · exact .inr (.inr (.inr (.inl (List.prefix_append _ _))))
    · exact .inr (.inr (.inr (.inr (List.prefix_append _ _))))
    · exact .inl ⟨"initials".toList ++ s.toList, by simp⟩
  have inv : AuthorsInv m [] :=
    { authors := h0
      numbered := by intro i a h; simp at h
      fresh := fun i _ a p hp => pre a p hp _
      first := by intro a h; simp at h
      nofirst := fun _ a p hp => pre a p hp _
      list := by
        simp only [if_true]
        exact h1 _ (.inl ⟨"s".toList, by simp⟩) }
  have r := inv.run [] as hadd
  simp only [List.nil_append] at r
  refine ⟨r.authors, ?_, ?_, ?_⟩
  · intro i a hi b v hm
    have := r.numbered i a hi (b, v) hm
    rwa [← String.append_assoc] at this
  · intro a ha b v hm
    have := r.first a ha (b, v) hm
    rwa [String.append_empty] at this
  · intro hne
    have := r.list
    rw [String.append_empty] at this
    simpa [hne] using this

/-- C22: the premise of `C22_author_attributes` is met for every list of authors with non-empty names,
starting from any job settings. -/
theorem C22_adding_authors_succeeds (m : DocumentMeta) (as : List Author)
    (h : ∀ a ∈ as, a.first ≠ "" ∧ a.last ≠ "") : ∃ m', as.foldlM addAuthor m = some m' :=
  addAuthors_total as m h

example : ∃ m', [Author.mk "Doc" none "Writer" (some "d@x"), ⟨"Jo", some "Q", "Public", none⟩].foldlM addAuthor
      (ofSettings none .modeSafe Map.empty false) = some m' ∧
    m'.headerAttrs "middlename_2" = some (.string "Q") ∧
    m'.headerAttrs "authors" = some (.string "Doc Writer, Jo Q Public") :=
  ⟨_, rfl, by decide, by decide⟩
example (k : String) : (ofSettings none .modeSafe Map.empty false).headerAttrs k = none := rfl

/-- C23: parsing inverts printing for document types, and accepts nothing but the printed names. -/
theorem C23_doctype_round_trip (s : String) (d : DocType) : DocType.parse s = some d ↔ s = d.toStr := by
  unfold DocType.parse
  constructor
  · intro h
    repeat' split at h
    all_goals first | cases h; assumption | cases h
  · rintro rfl
    cases d <;> decide

/-- C23: likewise for special section names. -/
theorem C23_special_section_round_trip (s : String) (x : SpecialSection) :
    SpecialSection.parse s = some x ↔ s = x.toStr := by
  unfold SpecialSection.parse
  constructor
  · intro h
    repeat' split at h
    all_goals first | cases h; assumption | cases h
  · rintro rfl
    cases x <;> decide

/-- C23: distinct types have distinct names. -/
theorem C23_names_injective :
    (∀ a b : DocType, a.toStr = b.toStr → a = b) ∧
    (∀ a b : SpecialSection, a.toStr = b.toStr → a = b) := by
  constructor
  · intro a b h
    have := (C23_doctype_round_trip b.toStr a).mpr h.symm
    rw [(C23_doctype_round_trip b.toStr b).mpr rfl] at this
    exact (Option.some.inj this).symm
  · intro a b h
    have := (C23_special_section_round_trip b.toStr a).mpr h.symm
    rw [(C23_special_section_round_trip b.toStr b).mpr rfl] at this
    exact (Option.some.inj this).symm

example : SpecialSection.parse "Index" = none ∧ DocType.parse "book" = some .book := by decide

/-- C53: the attribute store given to an AsciiDoc table cell is an `article`, has no table of contents and no
title switches in any layer, and agrees with the enclosing document on every other attribute. -/
theorem C53_cell_attributes (m : DocumentMeta) :
    m.cloneForCell.doctype = .article ∧
    (∀ k ∈ ["toc", "toc-placement", "toc-position", "showtitle", "notitle"],
      m.cloneForCell.get k = defaultAttrs k) ∧
    (∀ k, k ∉ ["toc", "toc-placement", "toc-position", "showtitle", "notitle"] → k ∉ doctypeFlags →
      k ≠ "doctype" → m.cloneForCell.get k = m.get k) ∧
    m.cloneForCell.safeMode = m.safeMode ∧ m.cloneForCell.authors = m.authors := by
  have hd : (attrsInsert m.headerAttrs "doctype" (.string "article")).1
      = m.headerAttrs.insert "doctype" (.string "article") := attrsInsert_plain _ _ _ (by decide)
  refine ⟨rfl, ?_, ?_, rfl, rfl⟩
  · intro k hk
    simp only [List.mem_cons, List.not_mem_nil, or_false] at hk
    rcases hk with rfl | rfl | rfl | rfl | rfl <;>
      rw [get_preferred _ _ (by decide)] <;>
      simp [cloneForCell, removeAttr, setDoctype, DocType.toStr, hd, Map.remove, preferred]
  · intro k hk hf hdt
    simp only [List.mem_cons, List.not_mem_nil, or_false, not_or] at hk
    obtain ⟨h1, h2, h3, h4, h5⟩ := hk
    have hj : m.cloneForCell.jobAttrs k = m.jobAttrs k := by
      simp [cloneForCell, removeAttr, setDoctype, Map.remove, h1, h2, h3, h4, h5]
    have hh : ∀ k, k ∉ ["toc", "toc-placement", "toc-position", "showtitle", "notitle"] → k ≠ "doctype" →
        m.cloneForCell.headerAttrs k = m.headerAttrs k := by
      intro k hk hdt
      simp only [List.mem_cons, List.not_mem_nil, or_false, not_or] at hk
      obtain ⟨h1, h2, h3, h4, h5⟩ := hk
      simp [cloneForCell, removeAttr, setDoctype, DocType.toStr, hd, Map.remove, Map.insert, h1, h2, h3,
        h4, h5, hdt]
    have hb : ∀ k, k ∉ ["toc", "toc-placement", "toc-position", "showtitle", "notitle"] →
        m.cloneForCell.docAttrs k = m.docAttrs k := by
      intro k hk
      simp only [List.mem_cons, List.not_mem_nil, or_false, not_or] at hk
      obtain ⟨h1, h2, h3, h4, h5⟩ := hk
      simp [cloneForCell, removeAttr, setDoctype, Map.remove, h1, h2, h3, h4, h5]
    rw [get_preferred _ _ hf, get_preferred _ _ hf, hj]
    have hk' : k ∉ ["toc", "toc-placement", "toc-position", "showtitle", "notitle"] := by
      simp [h1, h2, h3, h4, h5]
    unfold preferred
    simp only [hh k hk' hdt, hb k hk', hh "_asciidork_derived_doctitle" (by decide) (by decide),
      hb "_asciidork_derived_doctitle" (by decide)]

example : ((([AttrOp.header "toc" (.bool true), .header "x" (.string "1")].foldl AttrOp.run
    (ofSettings (some .book) .modeSafe Map.empty true)).cloneForCell).get "x") = some (.string "1") := by decide

end Verif.Props

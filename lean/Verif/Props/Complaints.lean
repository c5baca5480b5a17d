import Verif.Lemmas.Complaints
/-! C87: the complaints about the structure of a document are exactly what is wrong with it. -/
namespace Verif.Props
open Verif.Sections Verif.Spec.Sections

/-- **C87** (reports): when complaints are collected, those about the structure of a document are exactly what is wrong in it, each
once and in the order of the source. -/
theorem C87_reports {book : Bool} {tl : Nat} {chunks : List (Item × List Item)} {trailing toc : Bool} {doc : Doc} {st : St}
    (h : parseDoc ⟨false, book, tl⟩ chunks trailing toc = .ok (doc, st)) : st.errs = docComplaints doc :=
  ((doc_told chunks trailing toc).1 doc st h).1

/-- **C87** (strict mode): when the first complaint ends the parse, it is the first thing that is wrong in the document that would have
been read otherwise; if nothing is wrong, that document is the result. -/
theorem C87_strict {book : Bool} {tl : Nat} {chunks : List (Item × List Item)} {trailing toc : Bool} {doc : Doc} {st : St}
    (h : parseDoc ⟨false, book, tl⟩ chunks trailing toc = .ok (doc, st)) :
    parseDoc ⟨true, book, tl⟩ chunks trailing toc = match docComplaints doc with
      | [] => .ok (doc, st)
      | e :: _ => .error (.diag e) :=
  ((doc_told chunks trailing toc).1 doc st h).2

/-- **C87** (strict mode accepts only what is right): a document accepted in strict mode is read the same way otherwise, and nothing is
wrong in it. -/
theorem C87_strict_accepts {book : Bool} {tl : Nat} {chunks : List (Item × List Item)} {trailing toc : Bool} {doc : Doc} {st : St}
    (h : parseDoc ⟨true, book, tl⟩ chunks trailing toc = .ok (doc, st)) :
    parseDoc ⟨false, book, tl⟩ chunks trailing toc = .ok (doc, st) ∧ docComplaints doc = [] := by
  have h1 := (doc_told (b := book) (tl := tl) chunks trailing toc).2 _ h
  refine ⟨h1, ?_⟩
  have h2 := C87_strict h1
  rw [h] at h2
  split at h2
  · assumption
  · cases h2

private def h (l t : Nat) (sp : Option SpecialSection := none) : Item × List Item := (.heading l t sp false, [])

/-- an article with a glossary that has a section, a section two levels down, one of level 0 and a block that is not closed -/
example : (parseDoc ⟨false, false, 2⟩ [(.para 1, []), h 1 2 (some .glossary), h 2 3, h 1 4, h 3 5, h 0 6, (.delim 7, [.para 8])] false true).toOption.map
    (fun r => (r.2.errs, docComplaints r.1)) =
    some ([.nestedSpecial 3, .outOfSequence 5, .levelZero 6, .unclosed 7], [.nestedSpecial 3, .outOfSequence 5, .levelZero 6, .unclosed 7]) := by
  decide +kernel

example : parseDoc ⟨true, false, 2⟩ [(.para 1, []), h 1 2 (some .glossary), h 2 3, h 1 4, h 3 5] false true = .error (.diag (.nestedSpecial 3)) := by
  rfl

/-- a book with an empty part -/
example : (parseDoc ⟨false, true, 2⟩ [h 0 1, h 1 2, h 0 3, h 0 4, h 1 5, h 3 6] false false).toOption.map (fun r => (r.2.errs, docComplaints r.1)) =
    some ([.emptyPart 3, .outOfSequence 6], [.emptyPart 3, .outOfSequence 6]) := by
  decide +kernel

/-- nothing is wrong -/
example : (parseDoc ⟨true, true, 2⟩ [h 1 9 (some .preface), h 0 1, h 1 2, h 2 3] false true).toOption.map (fun r => docComplaints r.1) = some [] := by
  decide +kernel

end Verif.Props

import Verif.Spec.KeptNotes
/-! C125: footnotes kept in attributes. -/
namespace Verif.Props
open Verif.KeptNotes

private theorem run_texts (xs : List Nat) (n : Nat) (s : Subs) (c : Ctx) (ts : List Tok) (h : xs.length < n) :
    run n s true c (xs.map .text ++ .close :: ts) = .ok (xs.map (.text · s), c, ts) := by
  induction xs generalizing n with
  | nil =>
    cases n with
    | zero => omega
    | succ n => rfl
  | cons x xs ih =>
    cases n with
    | zero => omega
    | succ n =>
      simp only [List.length_cons] at h
      rw [List.map_cons, List.cons_append, run, ih n (by omega)]
      rfl

private theorem run_pieces (ps : List Piece) (n : Nat) (s : Subs) (hm : s.macros = true) (h : (ps.flatMap (·.toks)).length < n) :
    run n s false ⟨s, none⟩ (ps.flatMap (·.toks)) = .ok (ps.flatMap (·.evs s), ⟨s, none⟩, []) := by
  induction ps generalizing n with
  | nil =>
    cases n with
    | zero => omega
    | succ n => rfl
  | cons p ps ih =>
    simp only [List.flatMap_cons, List.length_append] at h ⊢
    generalize ps.flatMap (·.toks) = ts at h ih ⊢
    generalize ps.flatMap (·.evs s) = es at ih ⊢
    cases p with
    | text k =>
      cases n with
      | zero => omega
      | succ n =>
        simp only [Piece.toks, List.length_cons, List.length_nil] at h
        simp only [Piece.toks, List.cons_append, List.nil_append, run]
        rw [ih n (by omega)]
        rfl
    | note id inner =>
      cases n with
      | zero => omega
      | succ n =>
        simp only [Piece.toks, List.length_cons, List.length_append, List.length_map, List.length_nil] at h
        simp only [Piece.toks, List.cons_append, List.append_assoc, List.nil_append, run, hm, if_true, Option.getD_none]
        rw [run_texts _ _ _ _ _ (by omega)]
        simp only [Option.isSome_none, Bool.false_eq_true, if_false]
        rw [ih n (by omega)]
        simp [Except.map, Piece.evs]
    | kept q id inner =>
      simp only [Piece.toks, List.length_cons, List.length_append, List.length_map, List.length_nil] at h
      match n, h with
      | 0, h => omega
      | 1, h => omega
      | n + 2, h =>
        simp only [Piece.toks, List.cons_append, List.append_assoc, List.nil_append, run, hm, if_true, Option.getD_some]
        rw [run_texts _ _ _ _ _ (by omega)]
        simp only [Option.isSome_some, if_true]
        rw [ih n (by omega)]
        simp [Except.map, Piece.evs]

/-- **C125**: in a text with any number of footnotes, some written in place and some kept in attributes in a pass macro, each footnote shows its text
with the substitutions it should have (those of the pass macro if it was kept in one, those of the block otherwise), all other text gets the substitutions of
the block, and afterwards the substitutions in force are those from before. There is no panic. Partial: the values kept hold one footnote, with no footnote in
it. -/
theorem C125_notes_partial (s : Subs) (hm : s.macros = true) (ps : List Piece) :
    parse ⟨s, none⟩ (ps.flatMap (·.toks)) = .ok (ps.flatMap (·.evs s), ⟨s, none⟩, []) :=
  run_pieces ps _ s hm (by omega)

private def normal : Subs := ⟨0, true⟩
private def quotes : Subs := ⟨1, false⟩
private def macros : Subs := ⟨2, true⟩

example : parse ⟨normal, none⟩ ([Piece.text 1, .kept quotes 2 [3, 4], .note 5 [6], .text 7].flatMap (·.toks)) =
    .ok ([.text 1 normal, .note 2, .text 3 quotes, .text 4 quotes, .shut, .note 5, .text 6 normal, .shut, .text 7 normal], ⟨normal, none⟩, []) := rfl

/-- **C125 violated** (two footnotes): a reference to an attribute with the value `pass:q[footnote:a[one] and footnote:b[two]]` makes the parser panic. -/
theorem C125_two_violated :
    parse ⟨normal, none⟩ [.kept quotes, .foot 1, .text 2, .close, .text 3, .foot 4, .text 5, .close, .close] = .error .panic := rfl

/-- **C125 violated** (no footnote): the value `pass:q[footnote:a]]` is marked as well, though it is no macro. After a reference to it, the next
footnote of the document makes the parser panic: `{fn} b.footnote:[c] d`. -/
theorem C125_none_violated :
    parse ⟨normal, none⟩ [.kept quotes, .text 1, .close, .close, .text 2, .foot 3, .text 4, .close, .text 5] = .error .panic := rfl

/-- …and even in a later block: what is left after the reference is the mark. -/
theorem C125_later_violated :
    parse ⟨normal, none⟩ [.kept quotes, .text 1, .close, .close] = .ok ([.text 1 normal, .bracket normal, .bracket normal], ⟨normal, some quotes⟩, []) ∧
    parse ⟨normal, some quotes⟩ [.foot 3, .text 4, .close, .text 5] = .error .panic := ⟨rfl, rfl⟩

/-- **C125 violated** (a footnote in a footnote): after a reference to `pass:m[footnote:a[b footnote:c[d]]]` the substitutions in force are still those
of the pass macro. -/
theorem C125_nested_violated :
    parse ⟨normal, none⟩ [.kept macros, .foot 1, .text 2, .foot 3, .text 4, .close, .close, .close] =
      .ok ([.note 1, .text 2 macros, .note 3, .text 4 macros, .shut, .shut], ⟨macros, none⟩, []) := rfl

end Verif.Props

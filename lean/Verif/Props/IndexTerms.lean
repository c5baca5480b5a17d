import Verif.Lemmas.IndexTerms
import Verif.Props.InlineSource
/-!
C95: index terms.
-/
namespace Verif.Props
open Verif Verif.Inlines TokenKind

/-- **C95**, partial: in lines of plain text, `((term))` becomes an index term that is shown as its text (further parentheses before or behind it are kept), `(((a, b, c)))` an
index term with these terms that is not shown — a term in double quotes may have commas, the blanks around the commas do
not belong to the terms — and all other text and all line ends stay as they are, in their order. It needs only finitely many
steps, and more steps do not change the result.

Missing: markup in the terms and next to them, terms over several lines, and index terms at the end of a line that is not the last
one (`C95_line_end_violated`). -/
theorem C95_index_terms_partial {env : Env} {subs : Substitutions} {ls : List (List Tok)} {ns : List Node} (h : TermLines ls ns)
    (hstop : ∀ l, env.stops l = false) (hm : subs.contains .macros = true) :
    ∃ n, ∀ m, n ≤ m → ∃ o, parseX env m subs (ls.map Line.new) = .ok o ∧ o.nodes = ns ∧ o.lines = [] := by
  obtain ⟨n, hn⟩ := runX_lines hstop hm h (ms := []) rfl
  exact ⟨n, fun m hm => ⟨_, goX_mono hm (by simp) hn, rfl, rfl⟩⟩

/-- **C95** (other texts): where there is no index term, the text is parsed as in the properties before. -/
theorem C95_other_texts {env : Env} {subs : Substitutions} {ls : List Line} {o : Out} (h : parse env subs ls = .ok o) :
    ∃ n, ∀ m, n ≤ m → parseX env m subs ls = .ok o :=
  ⟨_, fun _ hm => goX_mono hm (by simp) (goX_extends env _ _ _ _ _ _ _ _ _ (by simp) h)⟩

private def sample : List (List Tok) := (linesOf "See ((a b)) and (((x, \"y, z\" ,w))) ok.\nNext (((c))").map (·.toks)
private def l1 : List Tok := sample[0]'(by decide +kernel)
private def l2 : List Tok := sample[1]'(by decide +kernel)

private def isPhrase (t : List Tok) : Bool :=
  t.all isPlainTok && t.head?.any (fun t => t.kind ≠ Whitespace) &&
    t.getLast?.any (fun t => t.kind ≠ Whitespace && t.lexeme.getLast?.any fun c => !c.isWhitespace)

private theorem isPhrase_ok {t : List Tok} (h : isPhrase t = true) : Phrase t := by
  simp only [isPhrase, Bool.and_eq_true, List.all_eq_true, Option.any_eq_true, decide_eq_true_eq, Bool.not_eq_true'] at h
  obtain ⟨⟨h1, h2⟩, t, h3, h4, c, h5, h6⟩ := h
  exact ⟨h1, h2, t, c, h3, h4, h5, h6⟩

private def tk (l : List Tok) (i : Nat) : Tok := l[i]?.getD { kind := .Word, lexeme := [] }
private def cut (l : List Tok) (i n : Nat) : List Tok := (l.drop i).take n

private theorem terms1 : TermList (cut l1 11 12) [cut l1 11 1, cut l1 15 4, cut l1 22 1] := by
  have h3 : TermList (cut l1 22 1) [cut l1 22 1] := .last (.bare (isPhrase_ok (by decide +kernel)) (by decide +kernel))
  have h2 : OneTerm (tk l1 14 :: cut l1 15 4 ++ [tk l1 19]) (cut l1 15 4) := .quoted (by decide +kernel) (isPhrase_ok (by decide +kernel)) (by decide +kernel)
  have h1 : OneTerm (cut l1 11 1) (cut l1 11 1) := .bare (isPhrase_ok (by decide +kernel)) (by decide +kernel)
  have := TermList.cons (before := []) (comma := tk l1 12) (after := cut l1 13 1) h1 (by simp) (by decide +kernel) (by decide +kernel)
    (TermList.cons (before := cut l1 20 1) (comma := tk l1 21) (after := []) h2 (by decide +kernel) (by decide +kernel) (by simp) h3)
  have e : cut l1 11 12 = cut l1 11 1 ++ [] ++ tk l1 12 :: cut l1 13 1 ++
      ((tk l1 14 :: cut l1 15 4 ++ [tk l1 19]) ++ cut l1 20 1 ++ tk l1 21 :: [] ++ cut l1 22 1) := by decide +kernel
  rw [e]
  exact this

/-- two lines with three index terms, one of them with three terms, of which one has a comma -/
example : ∃ ls ns, linesOf "See ((a b)) and (((x, \"y, z\" ,w))) ok.\nNext (((c))" = ls.map Line.new ∧ TermLines ls ns ∧
    ns = [.leaf (.text "See ".toList), .wrap .indexTerm [.leaf (.text "a b".toList)], .leaf (.text " and ".toList),
      .wrap .concealed [.wrap .concealedTerm [.leaf (.text "x".toList)], .wrap .concealedTerm [.leaf (.text "y, z".toList)],
        .wrap .concealedTerm [.leaf (.text "w".toList)]],
      .leaf (.text " ok.".toList), .leaf .newline, .leaf (.text "Next (".toList), .wrap .indexTerm [.leaf (.text "c".toList)]] := by
  have a : Spelt (tk l1 2 :: cut l1 3 3 ++ [tk l1 6]) _ _ :=
    .visible (i := 0) (j := 0) (by decide +kernel) (by decide +kernel) (isPhrase_ok (by decide +kernel)) (by decide +kernel) (by decide +kernel) (.inl rfl) (by decide)
  have b : Spelt (tk l1 10 :: cut l1 11 12 ++ [tk l1 23]) _ _ :=
    .hidden (by decide +kernel) (by decide +kernel) terms1 (by decide) (by decide +kernel) (by decide +kernel)
  have c : Spelt (tk l2 2 :: cut l2 3 1 ++ [tk l2 4]) _ _ :=
    .visible (i := 1) (j := 0) (by decide +kernel) (by decide +kernel) (isPhrase_ok (by decide +kernel)) (by decide +kernel) (by decide +kernel) (.inr rfl) (by decide)
  have line1 := TermLine.term (pre := cut l1 0 2) (by decide +kernel) a (TermLine.term (pre := cut l1 7 3) (by decide +kernel) b
    (TermLine.text (tail := cut l1 24 3) (by decide +kernel)))
  have line2 := TermLine.term (pre := cut l2 0 2) (by decide +kernel) c (TermLine.text (tail := []) (by simp))
  exact ⟨_, _, (by decide +kernel), .cons line1 (by decide +kernel) (.last line2), (by decide +kernel)⟩

/-- four parentheses: the inner ones belong to the term, which is not shown -/
example : nodesOf (parseX para 60 .normal (linesOf "a ((((b))))")) = .ok [.leaf (.text "a ".toList),
      .wrap .concealed [.wrap .concealedTerm [.leaf (.text "(b)".toList)]]] ∧
    nodesOf (parseX para 60 .normal (linesOf "((*a* b )) (((c))))")) = .ok [
      .wrap .indexTerm [.wrap (.span .bold none) [.leaf (.text "a".toList)], .leaf (.text " b".toList)], .leaf (.text " ".toList),
      .wrap .concealed [.wrap .concealedTerm [.leaf (.text "c)".toList)]]] := by decide +kernel

/-- a text without index terms, and one with an index term in a phrase -/
example : (∃ o, parse para .normal (linesOf "a (b) *c*") = .ok o) ∧
    nodesOf (parseX para 60 .normal (linesOf "a *((b)) c*")) = .ok [.leaf (.text "a ".toList),
      .wrap (.span .bold none) [.wrap .indexTerm [.leaf (.text "b".toList)], .leaf (.text " c".toList)]] := by
  refine ⟨?_, by decide +kernel⟩
  have : (match parse para .normal (linesOf "a (b) *c*") with | .ok _ => true | .error _ => false) = true := by decide +kernel
  split at this
  · exact ⟨_, by assumption⟩
  · cases this

/-- **C95**, violated: the end of the line behind an index term is lost, the words are joined (`mod.rs:109-118` breaks out of
the loop over the tokens of the line without the newline node that other markup gets, `mod.rs:1136-1163`). -/
theorem C95_line_end_violated :
    nodesOf (parseX para 60 .normal (linesOf "((a))\nb")) = .ok [.wrap .indexTerm [.leaf (.text "a".toList)], .leaf (.text "b".toList)] ∧
    nodesOf (parseX para 60 .normal (linesOf "one(((a)))\ntwo")) =
      .ok [.leaf (.text "one".toList), .wrap .concealed [.wrap .concealedTerm [.leaf (.text "a".toList)]], .leaf (.text "two".toList)] := by
  decide +kernel

/-- **C95**, violated: the words of a concealed term on both sides of the end of a line are joined (`index_term.rs:190-240`). -/
theorem C95_two_lines_violated : nodesOf (parseX para 60 .normal (linesOf "(((a\nb)))")) =
    .ok [.wrap .concealed [.wrap .concealedTerm [.leaf (.text "ab".toList)]]] := by decide +kernel

/-- **C95**, violated: a term with parentheses in it is not an index term: what should not be shown is shown
(`line.rs:574-588` looks at the first closing parenthesis only). -/
theorem C95_parentheses_violated : nodesOf (parseX para 60 .normal (linesOf "(((a (b) c)))")) =
    .ok [.leaf (.text "(((a (b) c)))".toList)] := by decide +kernel

/-- **C95**, violated: parentheses behind a backslash that nothing closes make the parser panic (`index_term.rs:182`). -/
theorem C95_backslash_violated : nodesOf (parseX para 60 .normal (linesOf "\\((()))")) = .error .panic := by decide +kernel

/-- **C95**, violated: so do 259 closing parentheses, as their number is cut to eight bits (`index_term.rs:124-133`). -/
theorem C95_many_parentheses_violated :
    nodesOf (parseX para 60 .normal (linesOf ("(((a" ++ String.ofList (List.replicate 259 ')')))) = .error .panic := by decide +kernel

/-- **C95**, violated: with a blank before three closing parentheses, a parenthesis is lost (`index_term.rs:86-104` takes the text
for it from behind the trimmed term). -/
theorem C95_blank_violated : nodesOf (parseX para 60 .normal (linesOf "((a )))")) =
    .ok [.wrap .indexTerm [.leaf (.text "a ".toList)]] := by decide +kernel

/-- **C95**, violated: the blank before the first term is kept, that before the others is not; an empty term is left out, so
that the third term becomes the second one (`index_term.rs:198-236`). -/
theorem C95_first_blank_violated :
    nodesOf (parseX para 60 .normal (linesOf "((( a, b)))")) = .ok [.wrap .concealed
      [.wrap .concealedTerm [.leaf (.text " a".toList)], .wrap .concealedTerm [.leaf (.text "b".toList)]]] ∧
    nodesOf (parseX para 60 .normal (linesOf "(((a,,b)))")) = .ok [.wrap .concealed
      [.wrap .concealedTerm [.leaf (.text "a".toList)], .wrap .concealedTerm [.leaf (.text "b".toList)]]] := by decide +kernel

/-- **C95**, violated: a phrase may start in an index term and end behind it; the index term then does not end at its
parentheses, and all text behind it becomes part of it. -/
theorem C95_phrase_leaves_term_violated : nodesOf (parseX para 60 .normal (linesOf "x ((a *b)) c* d")) =
    .ok [.leaf (.text "x ".toList), .wrap .indexTerm [.leaf (.text "a ".toList), .wrap (.span .bold none) [.leaf (.text "b)) c".toList)],
      .leaf (.text " d".toList)]] := by decide +kernel

end Verif.Props

import Verif.Lemmas.ListsEq
/-! C36 — how lists nest; C62 — lists, list continuations and delimited blocks lose no text. -/
namespace Verif.Props
open Verif.Lists

/-- C36, the decision: an item starts a nested list exactly when a list is open and no open list has items of its
kind; it continues the innermost list exactly when that list's items are of its kind. -/
theorem C36_decision (opened : List Marker) (m : Marker) :
    (startsNested opened m = true ↔ opened ≠ [] ∧ ∀ x ∈ opened, ¬ SameKind x m) ∧
    (continuesCurrent opened m = true ↔ ∃ x rest, opened = x :: rest ∧ SameKind x m) := by
  refine ⟨startsNested_iff _ _, ?_⟩
  cases opened with
  | nil => simp [continuesCurrent]
  | cons x rest => rw [continues_iff]; simp

example : startsNested [.star 2, .star 1] (.star 3) = true ∧ startsNested [.star 2, .star 1] (.star 1) = false ∧
    startsNested [.digits 4] (.digits 1) = false ∧ continuesCurrent [.digits 4, .dash] (.digits 1) = true ∧
    continuesCurrent [.star 2, .star 1] (.star 1) = false := by decide

/-- C36, every list that is opened is closed: whatever the document, no list is open when its end is reached. -/
theorem C36_lists_closed (n : Nat) (chunks : List (List Ln)) (blocks : List Block) (s : St)
    (h : parseDoc n chunks = some (blocks, s)) : s.stack = [] := ((good n).blocks _ _ _ h).stack

/-- C36, parsing ends: every document is parsed with some amount of fuel and with every greater amount. -/
theorem C36_parsing_ends (chunks : List (List Ln)) : ∃ N, ∀ n ≥ N, ∃ r, parseDoc n chunks = some r :=
  ⟨_, fun n hn => (total n).blocks _ hn⟩

/-- C36 for documents of paragraphs and of ordered, unordered and callout lists: every list becomes one block, in which
an item starts a nested list exactly when no open list has items of its kind and otherwise continues the innermost open
list that has (see `WellNested` and `C36_nesting_unique`); the items of the block are the items of the source in their
order, and at the end no list is open.

Missing: description lists, list continuations, delimited blocks and attribute lists between items, for which the
statement is false (the theorems below), and items inside delimited blocks. -/
theorem C36_nesting_partial (pieces : List Piece) (hok : ∀ p ∈ pieces, p.ok) (hsep : Separated pieces) :
    ∃ N, ∀ n ≥ N, ∃ blocks, parseDoc n (pieces.flatMap Piece.write) = some (blocks, { chunks := [] }) ∧
      Become pieces blocks :=
  ⟨_, fun n hn => blocks_ok 0 pieces hok hsep n hn⟩

/-- The rule leaves no choice: there is only one well-nested tree with a given sequence of items. -/
theorem C36_nesting_unique (m m' : Marker) (b b' : Block) (h : WellNested [] m b) (h' : WellNested [] m' b')
    (hr : b.rows = b'.rows) : b = b' := wellNested_unique h h' hr

section
def exA : Row := ⟨.star 1, ['a'], [['m']]⟩
def exB : Row := ⟨.dash, ['b'], []⟩
def exC : Row := ⟨.digits 1, ['c'], []⟩
def exD : Row := ⟨.digits 7, ['d'], []⟩
def exE : Row := ⟨.star 1, ['e'], []⟩

example : (∀ p ∈ [Piece.items [[exA, exB, exC], [exD, exE]], .para ['p'] [.item .dash ['x']], .items [[exC]]], p.ok) ∧
    Separated [Piece.items [[exA, exB, exC], [exD, exE]], .para ['p'] [.item .dash ['x']], .items [[exC]]] := by
  simp [Piece.ok, Separated, Ln.plain]

/-- `* a`, `- b`, `1. c`, a blank line, `7. d`, `* e`: two items in the outer list, `b` within the first of them, and
`c` and `d` within `b` -/
example : ∃ s, parseDoc 60 ([Piece.items [[exA, exB, exC], [exD, exE]], .para ['p'] [.item .dash ['x']]].flatMap Piece.write) =
    some ([.list 1 [.mk (.star 1) ['a'] [.text ['m']] [] none [.list 2 [.mk .dash ['b'] [] [] none
        [.list 3 [.mk (.digits 1) ['c'] [] [] none [], .mk (.digits 7) ['d'] [] [] none []]]]],
      .mk (.star 1) ['e'] [] [] none []],
      .para [.text ['p'], .item .dash ['x']]], s) ∧ s.chunks = [] ∧ s.problems = 0 := gives_spec (by decide +kernel)
end

/-- `* a`, `term::`, `* b`: the marker of `b` matches an open list, yet `b` starts a nested list below `term`. -/
theorem C36_violated_description : ∃ s, parseDoc 60 [[.item (.star 1) ['a'], .term (.colons 2) ['t'] none,
      .item (.star 1) ['b']]] =
    some ([.list 1 [.mk (.star 1) ['a'] [] [] none [.list 2 [.mk (.colons 2) ['t'] [] []
      (some (.list 3 [.mk (.star 1) ['b'] [] [] none []])) []]]]], s) ∧ s.chunks = [] ∧ s.problems = 0 :=
  gives_spec (by decide +kernel)

/-- `* a`, `+`, `p`, `* b`: the item `b` is no item at all, but a line of the attached paragraph. -/
theorem C36_violated_attached : ∃ s, parseDoc 60 [[.item (.star 1) ['a'], .plus, .text ['p'], .item (.star 1) ['b']]] =
    some ([.list 1 [.mk (.star 1) ['a'] [] [] none [.para [.text ['p'], .item (.star 1) ['b']]]]], s) ∧ s.chunks = [] ∧ s.problems = 0 :=
  gives_spec (by decide +kernel)

/-- `term:: text`, `* b`: the item `b` is a line of the description. -/
theorem C36_violated_definition : ∃ s, parseDoc 60 [[.term (.colons 2) ['t'] (some ['x']), .item (.star 1) ['b']]] =
    some ([.list 1 [.mk (.colons 2) ['t'] [] [] (some (.para [.text ['x'], .item (.star 1) ['b']])) []]], s) ∧ s.chunks = [] ∧ s.problems = 0 :=
  gives_spec (by decide +kernel)

/-- `* a`, `+b+`, `* c`: a line that starts with `+` ends the list, and the item after it is a line of a paragraph. -/
theorem C36_violated_plus : ∃ s, parseDoc 60 [[.item (.star 1) ['a'], .plusText ['+', 'b', '+'], .item (.star 1) ['c']]] =
    some ([.list 1 [.mk (.star 1) ['a'] [] [] none []],
      .para [.plusText ['+', 'b', '+'], .item (.star 1) ['c']]], s) ∧ s.chunks = [] ∧ s.problems = 0 :=
  gives_spec (by decide +kernel)

/-- A list in a block attached to an item: `* a`, `+`, `====`, `- x`, `* y`, `====`. Inside the delimited block only the
list of `x` is open, and `y` should be nested in it; it becomes another list of the block, because the lists outside
of the block still count as open. -/
theorem C36_violated_enclosing : ∃ s, parseDoc 60 [[.item (.star 1) ['a'], .plus, .delim, .item .dash ['x'],
      .item (.star 1) ['y'], .delim]] =
    some ([.list 1 [.mk (.star 1) ['a'] [] [] none [.exampleBlock
      [.list 2 [.mk .dash ['x'] [] [] none []], .list 2 [.mk (.star 1) ['y'] [] [] none []]]]]], s) ∧ s.chunks = [] ∧ s.problems = 0 :=
  gives_spec (by decide +kernel)

/-- More than 255 open lists: the depth that is recorded wraps around (or, with overflow checks, the parser stops). -/
theorem C36_depth_wraps (s : St) (m : Marker) (ls : List Ln) (n : Nat) (b : Block) (s' : St) (hs : s.stack.length = 255)
    (h : parseList (n + 1) s m ls = some (some b, s')) : ∃ items, b = .list 0 items := by
  unfold parseList at h
  simp only [Option.bind_eq_some_iff, Option.some.injEq, Prod.exists, Prod.mk.injEq] at h
  obtain ⟨items, _, _, h, _⟩ := h
  refine ⟨items, ?_⟩
  rw [← h]; simp [hs]

/-- C62 for documents in which no lone `+` stands inside a delimited block: all text of the document is in its blocks,
once and in the order of the source, and nothing is left unread. -/
theorem C62_no_text_lost_partial (n : Nat) (chunks : List (List Ln)) (blocks : List Block) (s : St)
    (hno : noPlusInside false chunks.flatten) (h : parseDoc n chunks = some (blocks, s)) :
    blocksTexts blocks = chunks.flatten.flatMap Ln.texts ∧ s.chunks = [] := by
  obtain ⟨h1, _, h2⟩ := (lossless n).blocks { chunks } blocks s hno h
  have hs : s.chunks = [] := by
    rcases h2 with h2 | ⟨h2, _⟩ | ⟨h2, _⟩
    · exact h2
    · cases h2
    · rcases h2 with h2 | h2 <;> cases h2
  refine ⟨?_, hs⟩
  rw [hs] at h1
  simp only [chTexts_nil, List.append_nil] at h1
  rw [h1]
  have : ∀ c : List (List Ln), chTexts c = c.flatten.flatMap Ln.texts := by
    intro c
    induction c with
    | nil => rfl
    | cons a as ih => simp only [chTexts_cons, ih, List.flatten_cons, List.flatMap_append]; rfl
  exact this chunks

/-- The condition holds of documents without list continuations and of documents without delimited blocks. -/
theorem C62_condition (chunks : List (List Ln)) (h : Ln.plus ∉ chunks.flatten ∨ Ln.delim ∉ chunks.flatten) :
    noPlusInside false chunks.flatten := by
  rcases h with h | h
  · have : ∀ (b : Bool) (ls : List Ln), Ln.plus ∉ ls → noPlusInside b ls := by
      intro b ls
      induction ls generalizing b with
      | nil => intro _; trivial
      | cons l ls ih =>
        intro hn
        have h1 := fun b => ih b fun h => hn (by simp [h])
        cases l
        case plus => exact absurd (by simp) hn
        all_goals exact h1 _
    exact this _ _ h
  · have : ∀ ls : List Ln, Ln.delim ∉ ls → noPlusInside false ls := by
      intro ls
      induction ls with
      | nil => intro _; trivial
      | cons l ls ih =>
        intro hn
        have h1 := ih fun h => hn (by simp [h])
        cases l
        case delim => exact absurd (by simp) hn
        case plus => exact ⟨rfl, h1⟩
        all_goals exact h1
    exact this _ h

/-- `* a`, `+`, `====`, `x`, a blank line, `* y`, `====`, `+`, `z`, a blank line, `t:: u` -/
example : noPlusInside false [[Ln.item (.star 1) ['a'], .plus, .delim, .text ['x']], [.item (.star 1) ['y'], .delim, .plus,
      .text ['z']], [.term (.colons 2) ['t'] (some ['u'])]].flatten ∧
    (parseDoc 100 [[Ln.item (.star 1) ['a'], .plus, .delim, .text ['x']], [.item (.star 1) ['y'], .delim, .plus,
      .text ['z']], [.term (.colons 2) ['t'] (some ['u'])]]).map (fun r => blocksTexts r.1) =
      some [['a'], ['x'], ['y'], ['z'], ['t'], ['u']] := ⟨by simp [noPlusInside], by decide +kernel⟩

/-- `* a`, `+`, `====`, `x`, `+`, `y`, `====`: the text `y` is lost. (A problem is reported, of the block not being
closed, though it is.) -/
theorem C62_violated : ∃ s, parseDoc 100 [[.item (.star 1) ['a'], .plus, .delim, .text ['x'], .plus, .text ['y'], .delim]] =
    some ([.list 1 [.mk (.star 1) ['a'] [] [] none [.exampleBlock [.para [.text ['x']]]]]], s) ∧
      s.chunks = [] ∧ s.problems = 1 := gives_spec (by decide +kernel)

end Verif.Props

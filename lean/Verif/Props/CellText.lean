import Verif.Spec.CellText
/-!
# The paragraphs of a table cell

**C110**: the text of a cell is split into paragraphs at blank lines, and nothing of it is lost.
-/
namespace Verif.Props
open Verif.CellText Verif.Spec.CellText

variable {α : Type}

private theorem together_snoc (ds : List (List (Node α))) (p q : List (Node α)) :
    together (ds ++ [p, q]) = together (ds ++ [p]) ++ [.newline, .newline] ++ q := by
  induction ds with
  | nil => simp [together]
  | cons d ds ih =>
    have h : ∀ (x : List (Node α)) (xs : List (List (Node α))), together (d :: (ds ++ x :: xs)) = d ++ [.newline, .newline] ++ together (ds ++ x :: xs) := by
      intro x xs
      cases ds <;> simp [together]
    rw [List.cons_append, List.cons_append, h, h, ih]
    simp

private theorem together_last (ds : List (List (Node α))) (p q : List (Node α)) :
    together (ds ++ [p ++ q]) = together (ds ++ [p]) ++ q := by
  induction ds with
  | nil => simp [together]
  | cons d ds ih =>
    have h : ∀ (x : List (Node α)), together (d :: (ds ++ [x])) = d ++ [.newline, .newline] ++ together (ds ++ [x]) := by
      intro x
      cases ds <;> simp [together]
    rw [List.cons_append, List.cons_append, h, h, ih]
    simp

private theorem loop_together (ns : List (Node α)) (ds : List (List (Node α))) (last : List (Node α)) :
    together (splitLoop ds last ns) = together (ds ++ [last.reverse]) ++ ns := by
  fun_induction splitLoop ds last ns with
  | case1 => simp
  | case2 ds ns l ih =>
    rw [ih]
    have e : ds ++ [l.reverse] ++ [[].reverse] = ds ++ [l.reverse, ([] : List (Node α))] := by simp
    rw [e, together_snoc]
    have e2 : (Node.newline :: l).reverse = l.reverse ++ [Node.newline] := by simp
    rw [e2, together_last]
    simp
  | case3 ds ns l _ ih =>
    rw [ih, List.reverse_cons, together_last]
    simp
  | case4 ds l a ns ih =>
    rw [ih, List.reverse_cons, together_last]
    simp

/-- **C110** (nothing is lost): the paragraphs, with blank lines between them, are the text. -/
theorem C110_nothing_lost (ns : List (Node α)) : together (splitParagraphs ns) = ns := by
  unfold splitParagraphs
  split
  · rename_i h; rw [h]; rfl
  · rw [loop_together]; simp [together]

private theorem noBlank_snoc {p : List (Node α)} (h : NoBlank p) (x : Node α) (hx : x = .newline → ∀ q, p ≠ q ++ [.newline]) :
    NoBlank (p ++ [x]) := by
  intro a b e
  rcases List.eq_nil_or_concat b with rfl | ⟨b', y, rfl⟩
  · rw [List.append_nil, show a ++ [Node.newline, Node.newline] = (a ++ [.newline]) ++ [.newline] from by simp] at e
    have := List.append_inj' e rfl
    exact hx (List.cons.inj this.2).1 a this.1
  · rw [List.concat_eq_append, ← List.append_assoc] at e
    exact h a b' (List.append_inj' e rfl).1

private theorem loop_noBlank (ns : List (Node α)) (ds : List (List (Node α))) (last : List (Node α)) (hd : ∀ p ∈ ds, NoBlank p)
    (hl : NoBlank last.reverse) : ∀ p ∈ splitLoop ds last ns, NoBlank p := by
  fun_induction splitLoop ds last ns with
  | case1 ds last =>
    intro p hp
    rcases List.mem_append.1 hp with hp | hp
    · exact hd p hp
    · rw [List.mem_singleton.1 hp]; exact hl
  | case2 ds ns l ih =>
    refine ih ?_ (by intro a b e; have := congrArg List.length e; simp at this)
    intro p hp
    rcases List.mem_append.1 hp with hp | hp
    · exact hd p hp
    · rw [List.mem_singleton.1 hp]
      intro a b e
      exact hl a (b ++ [.newline]) (by rw [List.reverse_cons, e]; simp)
  | case3 ds ns l hn ih =>
    refine ih hd ?_
    rw [List.reverse_cons]
    refine noBlank_snoc hl _ fun _ q e => ?_
    have := congrArg List.reverse e
    simp only [List.reverse_reverse, List.reverse_append, List.reverse_cons, List.reverse_nil, List.nil_append, List.cons_append] at this
    exact hn _ this
  | case4 ds l a ns ih =>
    refine ih hd ?_
    rw [List.reverse_cons]
    exact noBlank_snoc hl _ (fun h => nomatch h)

/-- **C110** (all blank lines): no paragraph has a blank line in it. -/
theorem C110_no_blank (ns : List (Node α)) : ∀ p ∈ splitParagraphs ns, NoBlank p := by
  unfold splitParagraphs
  split
  · nofun
  · exact loop_noBlank ns [] [] nofun (by intro a b e; have := congrArg List.length e; simp at this)

private theorem loop_paragraph (p ns : List (Node α)) (ds : List (List (Node α))) (last : List (Node α))
    (h : NoBlank (last.reverse ++ p)) : splitLoop ds last (p ++ ns) = splitLoop ds (p.reverse ++ last) ns := by
  induction p generalizing last with
  | nil => rfl
  | cons x xs ih =>
    have hx : NoBlank ((x :: last).reverse ++ xs) := by simpa using h
    have := ih (x :: last) hx
    rw [List.reverse_cons, List.append_assoc, List.singleton_append, ← this, List.cons_append]
    cases x with
    | other a => rw [splitLoop]
    | newline =>
      cases last with
      | nil => rw [splitLoop]; nofun
      | cons y ys =>
        cases y with
        | newline => exact absurd (by simp) (h ys.reverse xs)
        | other b => rw [splitLoop]; nofun

private theorem loop_all (ps : List (List (Node α))) (p : List (Node α)) (ds : List (List (Node α))) (hp : IsParagraph p)
    (h : ∀ q ∈ ps, IsParagraph q) : splitLoop ds [] (together (p :: ps)) = ds ++ p :: ps := by
  induction ps generalizing p ds with
  | nil =>
    have := loop_paragraph p [] ds [] (by simpa using hp.2.1)
    rw [List.append_nil] at this
    rw [together, this, splitLoop]
    simp
  | cons q qs ih =>
    rw [together, List.append_assoc, loop_paragraph p _ ds [] (by simpa using hp.2.1), List.append_nil]
    · have e : ∀ r, splitLoop ds p.reverse ([.newline, .newline] ++ r) = splitLoop (ds ++ [p]) [] r := by
        intro r
        have hn : ∀ l, p.reverse ≠ .newline :: l := by
          intro l e
          have := congrArg List.reverse e
          rw [List.reverse_reverse, List.reverse_cons] at this
          exact hp.2.2.2 _ this
        rw [List.cons_append, List.cons_append, List.nil_append, splitLoop, splitLoop, List.reverse_reverse]
        exact hn
      rw [e, ih q (ds ++ [p]) (h q (.head _)) (fun r hr => h r (.tail _ hr))]
      simp
    · nofun

/-- **C110** (paragraphs), partial: paragraphs with a blank line between each and the next are the paragraphs of the cell.

Missing: more than one blank line (`C110_more_violated`). -/
theorem C110_paragraphs_partial (ps : List (List (Node α))) (h : ∀ p ∈ ps, IsParagraph p) :
    splitParagraphs (together ps) = ps := by
  cases ps with
  | nil => rfl
  | cons p ps =>
    have hp := h p (.head _)
    unfold splitParagraphs
    rw [if_neg]
    · have := loop_all ps p [] hp (fun q hq => h q (.tail _ hq))
      simpa using this
    · cases ps with
      | nil => exact hp.1
      | cons q qs => simp [together]

/-- **C110 violated**: after two blank lines a paragraph starts with a newline; of three, one is a paragraph with nothing in it. -/
theorem C110_more_violated :
    splitParagraphs [.other 'a', .newline, .newline, .newline, .other 'b'] = [[.other 'a'], [.newline, .other 'b']] ∧
    splitParagraphs [.other 'a', .newline, .newline, .newline, .newline, .other 'b'] = [[.other 'a'], [], [.other 'b']] := by decide

/-- **C110** (edges): of a cell, the white space at the end is dropped, and at the start of a literal one the newlines, and nothing else. -/
theorem C110_edges (literal : Bool) (ts : List (Tok α)) : ∃ a b, ts = a ++ trimForCell literal ts ++ b ∧
    (∀ t ∈ b, t.isSpace = true) ∧ (∀ t, (trimForCell literal ts).getLast? = some t → t.isSpace = false) ∧
    (∀ t ∈ a, literal = true ∧ t = .newline) ∧
    (literal = true → ∀ t, (trimForCell literal ts).head? = some t → t ≠ .newline) := by
  have key : ∀ us : List (Tok α), ∃ b, us = (us.reverse.dropWhile Tok.isSpace).reverse ++ b ∧ (∀ t ∈ b, t.isSpace = true) ∧
      ∀ t, (us.reverse.dropWhile Tok.isSpace).reverse.getLast? = some t → t.isSpace = false := by
    intro us
    refine ⟨(us.reverse.takeWhile Tok.isSpace).reverse, ?_, ?_, ?_⟩
    · rw [← List.reverse_append, List.takeWhile_append_dropWhile, List.reverse_reverse]
    · intro t ht
      rw [List.mem_reverse] at ht
      exact List.all_eq_true.1 List.all_takeWhile t ht
    · intro t ht
      rw [List.getLast?_reverse] at ht
      have := List.head?_dropWhile_not Tok.isSpace us.reverse
      rw [ht] at this
      simpa using this
  cases literal with
  | false =>
    obtain ⟨b, h1, h2, h3⟩ := key ts
    exact ⟨[], b, h1, h2, h3, nofun, nofun⟩
  | true =>
    obtain ⟨b, h1, h2, h3⟩ := key (ts.dropWhile Tok.isNewline)
    refine ⟨ts.takeWhile Tok.isNewline, b, ?_, h2, h3, ?_, ?_⟩
    · have := List.takeWhile_append_dropWhile (p := Tok.isNewline) (l := ts)
      rw [h1] at this
      rw [List.append_assoc]
      exact this.symm
    · intro t ht
      have := List.all_eq_true.1 (List.all_takeWhile (p := Tok.isNewline) (l := ts)) t ht
      cases t with
      | newline => exact ⟨rfl, rfl⟩
      | _ => cases this
    · intro _ t ht
      have hh : (ts.dropWhile Tok.isNewline).head? = some t := by
        rw [h1]
        have ht' : ((ts.dropWhile Tok.isNewline).reverse.dropWhile Tok.isSpace).reverse.head? = some t := ht
        rw [List.head?_append, ht']
        rfl
      have := List.head?_dropWhile_not Tok.isNewline ts
      rw [hh] at this
      rintro rfl
      simp [Tok.isNewline] at this

/-! ### the hypotheses are met -/

example : splitParagraphs [.other 'a', .newline, .other 'b', .newline, .newline, .other 'c'] =
    [[.other 'a', .newline, .other 'b'], [.other 'c']] := by decide

example : IsParagraph [Node.other 'a', .newline, .other 'b'] := by
  refine ⟨by simp, ?_, by simp, ?_⟩
  · rintro (_ | ⟨x, _ | ⟨y, _ | ⟨z, a⟩⟩⟩) b h <;> simp at h
  · rintro (_ | ⟨x, _ | ⟨y, _ | ⟨z, a⟩⟩⟩) h <;> simp at h

end Verif.Props

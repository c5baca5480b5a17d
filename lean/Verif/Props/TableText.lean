import Verif.Spec.TableText
/-!
# What a table is made from

**C113**: the content of a table is its lines up to the line that closes it, without comments; nothing else is lost, and nothing after it is read.

**C114**: the format and the separator of a table are those that its attributes say, or else its opening line.
-/
namespace Verif.Props
open Verif.TableText Verif.Spec.TableText Verif.Tables

/-! ### C113 -/

private theorem same_iff (a b : TableText.Line) : srcEq a b = true ↔ SameText a b := by
  unfold srcEq SameText
  simp

private theorem comment_iff (l : TableText.Line) : TableText.isComment l = true ↔ Comment l := by
  unfold TableText.isComment Comment
  cases l with
  | nil => simp
  | cons t ts =>
    simp only [List.getElem?_cons_zero, Option.any_some, Bool.and_eq_true, beq_iff_eq]
    constructor
    · exact fun h => ⟨t, ts, rfl, h⟩
    · rintro ⟨_, _, e, h⟩
      cases e
      exact h

private theorem shown_cons (l : TableText.Line) (ls : List TableText.Line) : shown (l :: ls) = if Comment l then shown ls else l :: shown ls := by
  unfold shown
  by_cases h : Comment l <;> simp [h]

/-- a line that closes a table is no comment -/
private theorem close_shown {delim l : TableText.Line} (hd : ∃ t ts, delim = t :: ts ∧ t.lexeme.length = 1) (h : SameText l delim) : ¬ Comment l := by
  rintro ⟨t, ts, rfl, _, h2⟩
  obtain ⟨d, ds, rfl, h1⟩ := hd
  unfold SameText at h
  simp only [List.map_cons, List.cons.injEq] at h
  rw [h.1] at h2
  omega

private theorem chunk_lost (delim : TableText.Line) (ls : List TableText.Line) (tokens : List Tok) :
    ∃ body, Ends delim ls body (chunkLoop delim tokens ls).2 ∧
      (chunkLoop delim tokens ls).1.filter (· ≠ newline) = tokens.filter (· ≠ newline) ++ (shown body).flatten.filter (· ≠ newline) := by
  induction ls generalizing tokens with
  | nil => exact ⟨[], .never _ nofun, by simp [chunkLoop, shown]⟩
  | cons l ls ih =>
    unfold chunkLoop
    have step : ¬ SameText l delim → ∀ body r, Ends delim ls body r → Ends delim (l :: ls) (l :: body) r := by
      intro hl body r h
      have hb : ∀ b : List TableText.Line, (∀ x ∈ b, ¬ SameText x delim) → ∀ x ∈ l :: b, ¬ SameText x delim := by
        intro b hb x hx
        rcases List.mem_cons.1 hx with rfl | hx
        · exact hl
        · exact hb x hx
      cases h with
      | closed _ close after h1 h2 => exact .closed (l :: body) close after (hb _ h1) h2
      | never _ h1 => exact .never _ (hb _ h1)
    by_cases hs : SameText l delim
    · rw [if_pos ((same_iff ..).2 hs)]
      exact ⟨[], .closed [] l ls nofun hs, by simp [shown]⟩
    · rw [if_neg (mt (same_iff ..).1 hs)]
      by_cases hc : Comment l
      · rw [if_pos ((comment_iff _).2 hc)]
        obtain ⟨body, h1, h2⟩ := ih tokens
        exact ⟨l :: body, step hs _ _ h1, by rw [h2, shown_cons, if_pos hc]⟩
      · rw [if_neg (mt (comment_iff _).1 hc)]
        obtain ⟨body, h1, h2⟩ := ih (tokens ++ l ++ (if ls.isEmpty then [] else [newline]))
        refine ⟨l :: body, step hs _ _ h1, ?_⟩
        rw [h2, shown_cons, if_neg hc]
        cases ls <;> simp

private theorem more_lost (delim : TableText.Line) (hd : ∃ t ts, delim = t :: ts ∧ t.lexeme.length = 1) (ls : List TableText.Line)
    (tokens : List Tok) :
    ∃ body, Ends delim ls body (moreLoop delim tokens ls).2 ∧
      (moreLoop delim tokens ls).1.filter (· ≠ newline) = tokens.filter (· ≠ newline) ++ (shown body).flatten.filter (· ≠ newline) := by
  induction ls generalizing tokens with
  | nil => exact ⟨[], .never _ nofun, by simp [moreLoop, shown]⟩
  | cons l ls ih =>
    unfold moreLoop
    have step : ¬ SameText l delim → ∀ body r, Ends delim ls body r → Ends delim (l :: ls) (l :: body) r := by
      intro hl body r h
      have hb : ∀ b : List TableText.Line, (∀ x ∈ b, ¬ SameText x delim) → ∀ x ∈ l :: b, ¬ SameText x delim := by
        intro b hb x hx
        rcases List.mem_cons.1 hx with rfl | hx
        · exact hl
        · exact hb x hx
      cases h with
      | closed _ close after h1 h2 => exact .closed (l :: body) close after (hb _ h1) h2
      | never _ h1 => exact .never _ (hb _ h1)
    by_cases hc : Comment l
    · rw [if_pos ((comment_iff _).2 hc)]
      obtain ⟨body, h1, h2⟩ := ih tokens
      exact ⟨l :: body, step (fun h => close_shown hd h hc) _ _ h1, by rw [h2, shown_cons, if_pos hc]⟩
    · rw [if_neg (mt (comment_iff _).1 hc)]
      have ht : (if tokens.isEmpty then tokens else tokens ++ [newline]).filter (· ≠ newline) = tokens.filter (· ≠ newline) := by
        split
        · rfl
        · simp
      by_cases hs : SameText l delim
      · simp only [if_pos ((same_iff ..).2 hs)]
        exact ⟨[], .closed [] l ls nofun hs, by rw [ht]; simp [shown]⟩
      · simp only [if_neg (mt (same_iff ..).1 hs)]
        obtain ⟨body, h1, h2⟩ := ih ((if tokens.isEmpty then tokens else tokens ++ [newline]) ++ l)
        refine ⟨l :: body, step hs _ _ h1, ?_⟩
        rw [h2, shown_cons, if_neg hc, List.filter_append, ht]
        simp

/-- **C113** (nothing is lost): a table ends at the first line like its opening line, the lines after that are left as they are, and, line ends
aside, the content of the table is that of its lines which are no comments, in their order. If there is no such line, it is reported. -/
theorem C113_nothing_lost (delim : TableText.Line) (hd : ∃ t ts, delim = t :: ts ∧ t.lexeme.length = 1) (chunk more : List TableText.Line) :
    ∃ body, Ends delim (chunk ++ more) body (tableContent delim chunk more).after ∧
      (tableContent delim chunk more).tokens.filter (· ≠ newline) = (shown body).flatten.filter (· ≠ newline) := by
  obtain ⟨b1, h1, h2⟩ := chunk_lost delim chunk []
  unfold tableContent
  cases hr : chunkLoop delim [] chunk with
  | mk tokens rest =>
    rw [hr] at h1 h2
    cases rest with
    | some rest =>
      refine ⟨b1, ?_, by simpa using h2⟩
      cases h1 with
      | closed _ close after h3 h4 =>
        have := Ends.closed b1 close (rest ++ more) h3 h4
        simpa using this
    | none =>
      cases h1 with
      | never _ h3 =>
        obtain ⟨b2, h5, h6⟩ := more_lost delim hd more tokens
        refine ⟨chunk ++ b2, ?_, ?_⟩
        · have hb : ∀ b : List TableText.Line, (∀ x ∈ b, ¬ SameText x delim) → ∀ x ∈ chunk ++ b, ¬ SameText x delim := by
            intro b hb x hx
            rcases List.mem_append.1 hx with hx | hx
            · exact h3 x hx
            · exact hb x hx
          simp only
          generalize (moreLoop delim tokens more).2 = r at h5
          cases h5 with
          | closed _ close after h7 h8 =>
            rw [← List.append_assoc]
            exact .closed _ close after (hb _ h7) h8
          | never _ h7 => exact .never _ (hb _ h7)
        · simp only
          simp only [List.filter_nil, List.nil_append] at h2
          rw [h6, h2]
          simp [shown]

/-! the layout -/

private theorem joined_snoc (ls : List TableText.Line) (l : TableText.Line) (h : ls ≠ []) : joined (ls ++ [l]) = joined ls ++ newline :: l := by
  induction ls with
  | nil => exact absurd rfl h
  | cons x xs ih =>
    cases xs with
    | nil => rfl
    | cons y ys =>
      have e1 : joined (x :: y :: ys ++ [l]) = x ++ newline :: joined (y :: ys ++ [l]) := rfl
      have e2 : joined (x :: y :: ys) = x ++ newline :: joined (y :: ys) := rfl
      rw [e1, e2, ih (by simp)]
      simp

/-- each line with a line end after it -/
private theorem joined_newline (ls : List TableText.Line) (h : ls ≠ []) : joined ls ++ [newline] = ls.flatMap (· ++ [newline]) := by
  induction ls with
  | nil => exact absurd rfl h
  | cons x xs ih =>
    cases xs with
    | nil => simp [joined]
    | cons y ys =>
      have e2 : joined (x :: y :: ys) = x ++ newline :: joined (y :: ys) := rfl
      rw [e2, List.flatMap_cons, ← ih (by simp)]
      simp

private theorem ends_unique {delim : TableText.Line} {ls b1 b2 : List TableText.Line} {r1 r2 : Option (List TableText.Line)}
    (h1 : Ends delim ls b1 r1) (h2 : Ends delim ls b2 r2) : b1 = b2 ∧ r1 = r2 := by
  have key : ∀ (b : List TableText.Line) ls r, Ends delim ls b r → b = ls.takeWhile (fun l => !srcEq l delim) ∧
      r = match ls.dropWhile (fun l => !srcEq l delim) with | [] => none | _ :: xs => some xs := by
    intro b ls r h
    cases h with
    | closed _ c a h1 h2 =>
      have : ∀ b : List TableText.Line, (∀ l ∈ b, ¬ SameText l delim) → (b ++ c :: a).takeWhile (fun l => !srcEq l delim) = b ∧
          (b ++ c :: a).dropWhile (fun l => !srcEq l delim) = c :: a := by
        intro b hb
        have hc : srcEq c delim = true := (same_iff ..).2 h2
        induction b with
        | nil => simp [hc]
        | cons x xs ih =>
          have hx : srcEq x delim = false := by
            have := hb x (List.mem_cons_self ..)
            rw [← same_iff] at this
            simpa using this
          obtain ⟨i1, i2⟩ := ih (fun l hl => hb l (List.mem_cons_of_mem _ hl))
          simp [hx, i1, i2]
      rw [(this b h1).1, (this b h1).2]
      exact ⟨rfl, rfl⟩
    | never _ h1 =>
      have hb : ∀ l ∈ b, (!srcEq l delim) = true := by
        intro l hl
        have := h1 l hl
        rw [← same_iff] at this
        simpa using this
      have e := List.takeWhile_append_dropWhile (p := fun l => !srcEq l delim) (l := b)
      have d : b.dropWhile (fun l => !srcEq l delim) = [] := by
        clear e h1
        induction b with
        | nil => rfl
        | cons x xs ih =>
          rw [List.dropWhile_cons_of_pos (p := fun l => !srcEq l delim) (hb x (List.mem_cons_self ..))]
          exact ih (fun l hl => hb l (List.mem_cons_of_mem _ hl))
      rw [d, List.append_nil] at e
      rw [e, d]
      exact ⟨rfl, rfl⟩
  obtain ⟨a1, a2⟩ := key _ _ _ h1
  obtain ⟨a3, a4⟩ := key _ _ _ h2
  exact ⟨a1.trans a3.symm, a2.trans a4.symm⟩

private theorem chunk_closed {delim close : TableText.Line} {body after : List TableText.Line} (h1 : ∀ l ∈ body, ¬ SameText l delim)
    (h2 : SameText close delim) (tokens : List Tok) :
    chunkLoop delim tokens (body ++ close :: after) = (tokens ++ (shown body).flatMap (· ++ [newline]), some after) := by
  induction body generalizing tokens with
  | nil => simp [chunkLoop, (same_iff ..).2 h2, shown]
  | cons l ls ih =>
    have hs := h1 l (List.mem_cons_self ..)
    have ih := ih (fun x hx => h1 x (List.mem_cons_of_mem _ hx))
    rw [List.cons_append, chunkLoop, if_neg (mt (same_iff ..).1 hs)]
    by_cases hc : Comment l
    · rw [if_pos ((comment_iff _).2 hc), ih, shown_cons, if_pos hc]
    · rw [if_neg (mt (comment_iff _).1 hc), ih, shown_cons, if_neg hc]
      cases ls <;> simp

private theorem chunk_open {delim : TableText.Line} {body : List TableText.Line} (h1 : ∀ l ∈ body, ¬ SameText l delim)
    (h2 : ∀ l, body.getLast? = some l → ¬ Comment l) (tokens : List Tok) :
    chunkLoop delim tokens body = (tokens ++ joined (shown body), none) := by
  induction body generalizing tokens with
  | nil => simp [chunkLoop, shown, joined]
  | cons l ls ih =>
    have hs := h1 l (List.mem_cons_self ..)
    rw [chunkLoop, if_neg (mt (same_iff ..).1 hs)]
    cases ls with
    | nil =>
      have hc : ¬ Comment l := h2 l rfl
      rw [if_neg (mt (comment_iff _).1 hc), shown_cons, if_neg hc]
      simp [chunkLoop, shown, joined]
    | cons y ys =>
      have ih := ih (fun x hx => h1 x (List.mem_cons_of_mem _ hx)) (by
        intro x hx
        exact h2 x (by rw [List.getLast?_cons_cons]; exact hx))
      have hne : shown (y :: ys) ≠ [] := by
        intro e
        have hl : (y :: ys).getLast? = some ((y :: ys).getLast (by simp)) := List.getLast?_eq_some_getLast _
        have hm : (y :: ys).getLast (by simp) ∈ shown (y :: ys) := by
          unfold shown
          rw [List.mem_filter]
          refine ⟨List.getLast_mem _, ?_⟩
          have := h2 _ (by rw [List.getLast?_cons_cons]; exact hl)
          simpa using this
        rw [e] at hm
        cases hm
      by_cases hc : Comment l
      · rw [if_pos ((comment_iff _).2 hc), ih, shown_cons l, if_pos hc]
      · rw [if_neg (mt (comment_iff _).1 hc), ih, shown_cons l, if_neg hc]
        cases hsh : shown (y :: ys) with
        | nil => exact absurd hsh hne
        | cons z zs => simp [joined]

private theorem more_after {delim : TableText.Line} (hd : ∃ t ts, delim = t :: ts ∧ t.lexeme.length = 1) {ls body : List TableText.Line}
    {r : Option (List TableText.Line)} (h : Ends delim ls body r) (tokens : List Tok) (ht : tokens ≠ []) :
    moreLoop delim tokens ls = (tokens ++ (shown body).flatMap (newline :: ·) ++ (if r.isSome then [newline] else []), r) := by
  cases h with
  | closed _ close after h1 h2 =>
    induction body generalizing tokens with
    | nil =>
      rw [List.nil_append, moreLoop, if_neg (mt (comment_iff _).1 (close_shown hd h2))]
      simp [(same_iff ..).2 h2, shown, ht]
    | cons l ls ih =>
      have hs := h1 l (List.mem_cons_self ..)
      have ih := ih (h1 := fun x hx => h1 x (List.mem_cons_of_mem _ hx))
      rw [List.cons_append, moreLoop]
      by_cases hc : Comment l
      · rw [if_pos ((comment_iff _).2 hc), ih _ ht, shown_cons, if_pos hc]
      · rw [if_neg (mt (comment_iff _).1 hc)]
        simp only [if_neg (mt (same_iff ..).1 hs), List.isEmpty_iff, ht, if_false]
        rw [ih _ (by simp), shown_cons, if_neg hc]
        simp
  | never _ h1 =>
    induction ls generalizing tokens with
    | nil => simp [moreLoop, shown]
    | cons l ls ih =>
      have hs := h1 l (List.mem_cons_self ..)
      have ih := ih (h1 := fun x hx => h1 x (List.mem_cons_of_mem _ hx))
      rw [moreLoop]
      by_cases hc : Comment l
      · rw [if_pos ((comment_iff _).2 hc), ih _ ht, shown_cons, if_pos hc]
      · rw [if_neg (mt (comment_iff _).1 hc)]
        simp only [if_neg (mt (same_iff ..).1 hs), List.isEmpty_iff, ht, if_false]
        rw [ih _ (by simp), shown_cons, if_neg hc]
        simp

private theorem joined_flat (l : TableText.Line) (ls : List TableText.Line) : joined (l :: ls) = l ++ ls.flatMap (newline :: ·) := by
  induction ls generalizing l with
  | nil => simp [joined]
  | cons y ys ih =>
    have e2 : joined (l :: y :: ys) = l ++ newline :: joined (y :: ys) := rfl
    rw [e2, ih]
    simp

private theorem more_first {delim : TableText.Line} (hd : ∃ t ts, delim = t :: ts ∧ t.lexeme.length = 1) {ls body : List TableText.Line}
    {r : Option (List TableText.Line)} (h : Ends delim ls body r) :
    moreLoop delim [] ls = (content (shown body) r.isSome, r) := by
  have skip : ∀ l ls, shown (l :: ls) = [] :: shown ls → content (shown (l :: ls)) r.isSome = content (shown ls) r.isSome := by
    intro l ls e
    rw [e]
    simp [content]
  have take : ∀ (l : TableText.Line) (ls : List TableText.Line), l ≠ [] → content (l :: shown ls) r.isSome =
      l ++ (shown ls).flatMap (newline :: ·) ++ (if r.isSome then [newline] else []) := by
    intro l ls hl
    unfold content
    rw [List.dropWhile_cons_of_neg (by simpa using hl)]
    simp only [joined_flat]
  induction ls generalizing body with
  | nil =>
    generalize e : ([] : List TableText.Line) = ls at h
    cases h with
    | closed _ _ _ _ _ => simp at e
    | never _ _ => subst e; rfl
  | cons l ls ih =>
    rw [moreLoop]
    by_cases hs : SameText l delim
    · have hc := close_shown hd hs
      obtain ⟨rfl, rfl⟩ := ends_unique h (.closed [] l ls nofun hs)
      rw [if_neg (mt (comment_iff _).1 hc)]
      simp [(same_iff ..).2 hs, shown, content]
    · have hb : ∃ b, body = l :: b ∧ Ends delim ls b r := by
        generalize e : l :: ls = x at h
        cases h with
        | closed _ close after h1 h2 =>
          cases body with
          | nil =>
            simp only [List.nil_append, List.cons.injEq] at e
            rw [e.1] at hs
            exact absurd h2 hs
          | cons y ys =>
            simp only [List.cons_append, List.cons.injEq] at e
            rw [e.1, e.2]
            exact ⟨ys, rfl, .closed _ _ _ (fun x hx => h1 x (List.mem_cons_of_mem _ hx)) h2⟩
        | never _ h1 =>
          subst e
          exact ⟨ls, rfl, .never _ (fun x hx => h1 x (List.mem_cons_of_mem _ hx))⟩
      obtain ⟨b, rfl, hb⟩ := hb
      by_cases hc : Comment l
      · rw [if_pos ((comment_iff _).2 hc), ih hb, shown_cons, if_pos hc]
      · rw [if_neg (mt (comment_iff _).1 hc)]
        simp only [if_neg (mt (same_iff ..).1 hs), List.isEmpty_nil, if_true, List.nil_append]
        rw [shown_cons, if_neg hc]
        by_cases hl : l = []
        · subst hl
          rw [ih hb]
          simp [content]
        · rw [take l b hl, more_after hd hb l hl]

/-- **C113** (layout), partial: the content of a table is its lines without comments and without empty lines at the start, one after another.

Missing: tables in which a comment is right before an empty line: there is one more empty line then (`C113_comment_violated`). -/
theorem C113_lines_partial (delim : TableText.Line) (hd : ∃ t ts, delim = t :: ts ∧ t.lexeme.length = 1) (chunk more : List TableText.Line)
    (hc : ∀ l ∈ chunk, l ≠ []) (hlast : (∃ l ∈ chunk, SameText l delim) ∨ ∀ l, chunk.getLast? = some l → ¬ Comment l)
    {body : List TableText.Line} {after : Option (List TableText.Line)} (h : Ends delim (chunk ++ more) body after) :
    tableContent delim chunk more = ⟨content (shown body) after.isSome, after⟩ := by
  obtain ⟨b1, h1, _⟩ := chunk_lost delim chunk []
  generalize hr : (chunkLoop delim [] chunk).2 = r at h1
  have drop : ∀ b : List TableText.Line, (∀ l ∈ b, l ≠ []) → (shown b).dropWhile (· = []) = shown b := by
    intro b hb
    cases hs : shown b with
    | nil => rfl
    | cons x xs =>
      have : x ∈ b := by
        have : x ∈ shown b := by rw [hs]; exact List.mem_cons_self ..
        exact (List.mem_filter.1 this).1
      rw [List.dropWhile_cons_of_neg (by simpa using hb x this)]
  cases h1 with
  | closed _ close rest h3 h4 =>
    have e := chunk_closed (after := rest) h3 h4 []
    obtain ⟨rfl, rfl⟩ := ends_unique h (b2 := b1) (r2 := some (rest ++ more)) (by
      have := Ends.closed b1 close (rest ++ more) h3 h4
      simpa using this)
    unfold tableContent
    rw [e]
    simp only [List.nil_append, Option.isSome_some, Content.mk.injEq, and_true]
    unfold content
    rw [drop _ (fun l hl => hc l (by simp [hl]))]
    cases hs : shown body with
    | nil => simp
    | cons x xs => exact (joined_newline _ (by simp)).symm
  | never _ h3 =>
    have hlast : ∀ l, chunk.getLast? = some l → ¬ Comment l := by
      rcases hlast with ⟨l, hl, hs⟩ | hlast
      · exact absurd hs (h3 l hl)
      · exact hlast
    have e := chunk_open h3 hlast []
    obtain ⟨b2, h5, _⟩ := more_lost delim hd more []
    generalize (moreLoop delim [] more).2 = r2 at h5
    have hb : Ends delim (chunk ++ more) (chunk ++ b2) r2 := by
      have hb : ∀ b : List TableText.Line, (∀ x ∈ b, ¬ SameText x delim) → ∀ x ∈ chunk ++ b, ¬ SameText x delim := by
        intro b hb x hx
        rcases List.mem_append.1 hx with hx | hx
        · exact h3 x hx
        · exact hb x hx
      cases h5 with
      | closed _ close after h7 h8 =>
        rw [← List.append_assoc]
        exact .closed _ close after (hb _ h7) h8
      | never _ h7 => exact .never _ (hb _ h7)
    obtain ⟨rfl, rfl⟩ := ends_unique h hb
    unfold tableContent
    rw [e]
    simp only [List.nil_append]
    have esh : shown (chunk ++ b2) = shown chunk ++ shown b2 := by simp [shown]
    cases hs : shown chunk with
    | nil =>
      rw [esh, hs]
      simp only [joined, List.nil_append]
      rw [more_first hd h5]
    | cons x xs =>
      have hx : x ≠ [] := by
        have : x ∈ shown chunk := by rw [hs]; exact List.mem_cons_self ..
        exact hc x (List.mem_filter.1 this).1
      have hj : joined (x :: xs) ≠ [] := by
        rw [joined_flat]
        simp [hx]
      rw [more_after hd h5 _ hj, esh, hs]
      unfold content
      rw [List.cons_append, List.dropWhile_cons_of_neg (by simpa using hx)]
      simp [joined_flat]

private def bar : TableText.Line := [⟨.Pipe, ['|'], false⟩, ⟨.EqualSigns, ['=', '=', '='], false⟩]
private def word (c : Char) : TableText.Line := [⟨.Word, [c], false⟩]
private def note : TableText.Line := [⟨.ForwardSlashes, ['/', '/'], false⟩, ⟨.Word, ['c'], false⟩]

/-- **C113 violated**: a comment before an empty line leaves a line end more than the same lines without it. -/
theorem C113_comment_violated :
    (tableContent bar [word 'a', note] [[], word 'b', bar]).tokens = word 'a' ++ [newline, newline, newline] ++ word 'b' ++ [newline] ∧
    (tableContent bar [word 'a'] [[], word 'b', bar]).tokens = word 'a' ++ [newline, newline] ++ word 'b' ++ [newline] := by decide

/-! ### C114 -/

/-- **C114** (format), partial: the format of a table is that of its attribute, or else that of its opening line.

Missing: `format=psv` outside of nested tables, which is read as values with `|` between them (`C114_psv_violated`). -/
theorem C114_format_partial (format : Option (List Char)) (delim : Char) (nested : Bool)
    (h : format = some "psv".toList → delim = '!' ∧ nested = true) : formatOf format delim nested = meant format delim := by
  unfold formatOf meant
  cases format with
  | none =>
    simp only [reduceCtorEq, if_false, meant.byDelim]
    by_cases h1 : delim = ':'
    · subst h1; rfl
    · rw [if_neg h1]
      split
      · rfl
      · rfl
  | some f =>
    simp only [Option.some.injEq] at h ⊢
    by_cases h1 : f = "psv".toList
    · rw [if_pos h1, if_pos h1, if_pos (h h1), if_pos (h h1).1]
    · rw [if_neg h1, if_neg h1]
      split
      · rfl
      · split
        · rfl
        · split
          · rfl
          · unfold meant.byDelim
            by_cases h1 : delim = ':'
            · subst h1; rfl
            · rw [if_neg h1]
              split
              · rfl
              · rfl

/-- **C114** (separator): the separator is the first character of the attribute, and it is reported that it is not one character exactly then;
the kind of format stays. -/
theorem C114_separator (sep : Option (List Char)) (f : Tables.Format × Char) :
    (separatorOf sep f).1.1 = f.1 ∧
    (separatorOf sep f).1.2 = (sep.bind List.head?).getD f.2 ∧
    ((separatorOf sep f).2 = true ↔ ∃ s, sep = some s ∧ s.length ≠ 1) := by
  cases sep with
  | none => simp [separatorOf]
  | some s =>
    cases s with
    | nil => simp [separatorOf]
    | cons c rest => cases rest <;> simp [separatorOf]

private def cellsOf : Outcome → List (List (List Char))
  | .table t => t.rows.map fun r => r.map fun c => c.text.flatMap Tok.lexeme
  | _ => []

private def twoCells : List Tok := [⟨.Pipe, ['|'], false⟩, ⟨.Word, ['x'], false⟩, ⟨.Pipe, ['|'], false⟩, ⟨.Word, ['y'], false⟩, newline]

/-- **C114 violated**: the default format, said explicitly, gives another table. -/
theorem C114_psv_violated :
    formatOf (some "psv".toList) '|' false ≠ formatOf none '|' false ∧
    cellsOf (parseTable ⟨.csv, '|', []⟩ { lines := 2 } 10 twoCells) = [[[], ['x'], ['y']]] ∧
    cellsOf (parseTable ⟨.prefixed, '|', []⟩ { lines := 2 } 10 twoCells) = [[['x'], ['y']]] := by decide +kernel

/-! ### the hypotheses are met -/

example : Ends bar ([word 'a', note] ++ [word 'b', bar, word 'c']) [word 'a', note, word 'b'] (some [word 'c']) :=
  .closed [word 'a', note, word 'b'] bar [word 'c'] (by
    intro l hl
    simp only [List.mem_cons, List.not_mem_nil, or_false] at hl
    unfold SameText
    rcases hl with rfl | rfl | rfl <;> decide) rfl

example : tableContent bar [word 'a', note, word 'b', bar] [word 'c'] =
    ⟨word 'a' ++ newline :: word 'b' ++ [newline], some [word 'c']⟩ := by decide

example : ∃ t ts, bar = t :: ts ∧ t.lexeme.length = 1 := ⟨_, _, rfl, rfl⟩

end Verif.Props

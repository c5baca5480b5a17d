import Verif.Spec.DocHeader
/-! Lemmas: the document header. -/
namespace Verif.DocHeader

theorem dropWhile_le {α : Type} (p : α → Bool) (l : List α) : (l.dropWhile p).length ≤ l.length := by
  induction l with
  | nil => simp
  | cons a l ih => rw [List.dropWhile_cons]; split <;> simp <;> omega

theorem untilDelim_le {ls r : List Line} (h : untilDelim ls = some r) : r.length < ls.length := by
  induction ls with
  | nil => cases h
  | cons l ls ih =>
    rw [untilDelim] at h
    split at h
    · cases h; simp
    · have := ih h; simp; omega

theorem closeBlock_le {cs r : List (List Line)} (h : closeBlock cs = some r) : (r.map (fun c => c.length + 1)).sum ≤ (cs.map (fun c => c.length + 1)).sum := by
  induction cs with
  | nil => cases h
  | cons c cs ih =>
    rw [closeBlock] at h
    split at h
    · cases h; simp
    · have := ih h; simp; omega

theorem commentBlock_le (ms : List Line) (cs : List (List Line)) : size (commentBlock ms cs).1 (commentBlock ms cs).2 ≤ size ms cs := by
  unfold commentBlock size
  split
  · have := untilDelim_le ‹_›; simp; omega
  · split
    · have := closeBlock_le ‹_›; simp; omega
    · simp

/-- the budget does not matter -/
theorem prefixed_enough : ∀ (n m : Nat) (cur : List Line) (cs : List (List Line)), size cur cs < n → size cur cs < m → prefixed n cur cs = prefixed m cur cs := by
  intro n
  induction n with
  | zero => intro m cur cs h; omega
  | succ n ih =>
    intro m cur cs h h'
    cases m with
    | zero => omega
    | succ m =>
      match cur, cs with
      | [], [] => rfl
      | [], c :: cs =>
        simp only [prefixed]
        exact ih _ _ _ (by simp [size] at h ⊢; omega) (by simp [size] at h' ⊢; omega)
      | l :: ls, cs =>
        simp only [prefixed]
        have hle := dropWhile_le (fun l : Line => decide (l.kind = .comment)) (l :: ls)
        unfold skipComments
        cases hs : (l :: ls).dropWhile (fun l => decide (l.kind = .comment)) with
        | nil =>
          refine ih _ _ _ ?_ ?_ <;> simp [size] at h h' ⊢ <;> omega
        | cons x xs =>
          rw [hs] at hle
          simp only
          split
          · have hx : (skipAttrs (x :: xs)).length ≤ xs.length := by
              unfold skipAttrs
              rw [List.dropWhile_cons, if_pos (by simp [*])]
              exact dropWhile_le _ _
            refine ih _ _ _ ?_ ?_ <;> simp [size] at h h' hle ⊢ <;> omega
          · split
            · have := commentBlock_le xs cs
              refine ih _ _ _ ?_ ?_ <;> simp [size] at h h' hle this ⊢ <;> omega
            · rfl

/-- `prefixed` with enough budget -/
def P (cur : List Line) (cs : List (List Line)) : Option (List Line) × List (List Line) := prefixed (size cur cs + 1) cur cs

theorem P_of {n : Nat} {cur : List Line} {cs : List (List Line)} (h : size cur cs < n) : prefixed n cur cs = P cur cs :=
  prefixed_enough _ _ _ _ h (by omega)

theorem P_next (c : List Line) (cs : List (List Line)) : P [] (c :: cs) = P c cs := by
  unfold P
  rw [prefixed]
  exact P_of (by simp [size])

theorem P_end : P [] [] = (none, []) := rfl

theorem P_body {l : Line} (h : startsBody l = true) (ls : List Line) (cs : List (List Line)) : P (l :: ls) cs = (some (l :: ls), cs) := by
  simp only [startsBody, List.contains_eq_mem, List.mem_cons, List.not_mem_nil, or_false, Bool.not_eq_true', decide_eq_false_iff_not, not_or] at h
  unfold P
  rw [prefixed]
  simp [skipComments, h]

theorem P_comment {l : Line} (h : l.kind = .comment) (ls : List Line) (cs : List (List Line)) : P (l :: ls) cs = P ls cs := by
  have h1 : skipComments (l :: ls) = skipComments ls := by simp [skipComments, h]
  cases ls with
  | nil =>
    unfold P
    rw [prefixed, h1]
    simp only [skipComments, List.dropWhile_nil]
    exact P_of (by simp [size])
  | cons m ms =>
    unfold P
    rw [show size (l :: m :: ms) cs + 1 = (size (l :: ms) cs + 1) + 1 by simp [size]; omega, prefixed, h1,
      show size (m :: ms) cs + 1 = size (l :: ms) cs + 1 by simp [size]]
    rw [show prefixed (size (l :: ms) cs + 1) (m :: ms) cs = prefixed (size (l :: ms) cs + 1 + 1) (m :: ms) cs from
      prefixed_enough _ _ _ _ (by simp [size]) (by simp [size]; omega), prefixed]

theorem P_attr {l : Line} (h : l.kind = .attr) (ls : List Line) (cs : List (List Line)) : P (l :: ls) cs = P ls cs := by
  have h1 : ∀ l : Line, l.kind = .attr → ∀ ls, P (l :: ls) cs = P (skipAttrs ls) cs := by
    intro l h ls
    have hle := dropWhile_le (fun l : Line => decide (l.kind = .attr)) ls
    unfold P
    rw [prefixed]
    have h2 : skipComments (l :: ls) = l :: ls := by simp [skipComments, h]
    have h3 : skipAttrs (l :: ls) = skipAttrs ls := by simp [skipAttrs, h]
    rw [h2]
    simp only [h, if_true, h3]
    exact P_of (by simp [size, skipAttrs]; omega)
  rw [h1 l h]
  cases ls with
  | nil => rfl
  | cons m ms =>
    by_cases hm : m.kind = .attr
    · rw [h1 m hm]
      simp [skipAttrs, hm]
    · simp [skipAttrs, hm]

theorem P_delim {l : Line} (h : l.kind = .delim) (ls : List Line) (cs : List (List Line)) :
    P (l :: ls) cs = P (commentBlock ls cs).1 (commentBlock ls cs).2 := by
  have h2 : skipComments (l :: ls) = l :: ls := by simp [skipComments, h]
  have := commentBlock_le ls cs
  unfold P
  rw [prefixed, h2]
  simp only [h, reduceCtorEq, if_false, if_true]
  exact P_of (by simp [size] at this ⊢; omega)

theorem untilDelim_append {a : List Line} (ha : ∀ l ∈ a, l.kind ≠ .delim) {d : Line} (hd : d.kind = .delim) (b : List Line) : untilDelim (a ++ d :: b) = some b := by
  induction a with
  | nil => simp [untilDelim, hd]
  | cons x xs ih =>
    rw [List.cons_append, untilDelim, if_neg (ha x (by simp))]
    exact ih (fun l hl => ha l (by simp [hl]))

theorem untilDelim_none {a : List Line} (ha : ∀ l ∈ a, l.kind ≠ .delim) : untilDelim a = none := by
  induction a with
  | nil => rfl
  | cons x xs ih =>
    rw [untilDelim, if_neg (ha x (by simp))]
    exact ih (fun l hl => ha l (by simp [hl]))

theorem P_item {i : Item} (h : i.ok = true) (ls : List Line) (cs : List (List Line)) : P (i.lines ++ ls) cs = P ls cs := by
  cases i with
  | comment l => exact P_comment (by simpa [Item.ok] using h) ls cs
  | attr l => exact P_attr (by simpa [Item.ok] using h) ls cs
  | block a m b =>
    simp only [Item.ok, Bool.and_eq_true, decide_eq_true_eq, List.all_eq_true] at h
    obtain ⟨⟨h1, h2⟩, h3⟩ := h
    have e : (Item.block a m b).lines ++ ls = a :: (m ++ b :: ls) := by simp [Item.lines]
    rw [e, P_delim h1]
    simp [commentBlock, untilDelim_append h3 h2]

theorem P_items {is : List Item} (h : is.all Item.ok = true) (ls : List Line) (cs : List (List Line)) : P (linesOf is ++ ls) cs = P ls cs := by
  induction is with
  | nil => rfl
  | cons i is ih =>
    simp only [List.all_cons, Bool.and_eq_true] at h
    rw [show linesOf (i :: is) ++ ls = i.lines ++ (linesOf is ++ ls) by simp [linesOf], P_item h.1, ih h.2]

theorem closeBlock_inner {inner : List (List Line)} (hi : ∀ c ∈ inner, ∀ l ∈ c, l.kind ≠ .delim) {stop : List Line} (hs : ∀ l ∈ stop, l.kind ≠ .delim)
    {d : Line} (hd : d.kind = .delim) (cs : List (List Line)) : closeBlock (inner ++ [stop ++ [d]] ++ cs) = some cs := by
  induction inner with
  | nil => simp [closeBlock, untilDelim_append hs hd]
  | cons c inner ih =>
    simp only [List.cons_append]
    rw [closeBlock, untilDelim_none (hi c (by simp))]
    exact ih (fun c hc => hi c (by simp [hc]))

theorem P_before {b : Before} (h : b.ok = true) (cs : List (List Line)) : P [] (b.chunks ++ cs) = P [] cs := by
  obtain ⟨items, long⟩ := b
  simp only [Before.ok, Bool.and_eq_true] at h
  obtain ⟨h1, h2⟩ := h
  cases long with
  | none =>
    simp only [Before.chunks, List.cons_append, List.nil_append]
    rw [P_next]
    have := P_items h1 [] cs
    rwa [List.append_nil] at this
  | some l =>
    simp only [Option.all_some, Long.ok, Bool.and_eq_true, decide_eq_true_eq, List.all_eq_true] at h2
    obtain ⟨⟨⟨⟨g1, g2⟩, g3⟩, g4⟩, g5⟩ := h2
    simp only [Before.chunks, List.cons_append]
    rw [P_next, P_items h1, P_delim g1]
    unfold commentBlock
    rw [untilDelim_none g3]
    simp only
    rw [closeBlock_inner g4 g5 g2]

theorem P_befores {bs : List Before} (h : bs.all Before.ok = true) (cs : List (List Line)) : P [] (bs.flatMap Before.chunks ++ cs) = P [] cs := by
  induction bs with
  | nil => rfl
  | cons b bs ih =>
    simp only [List.all_cons, Bool.and_eq_true] at h
    rw [List.flatMap_cons, List.append_assoc, P_before h.1, ih h.2]

theorem takeMeta_metas {ms : List Line} (h : ∀ l ∈ ms, (l.kind = .attrList ∨ l.kind = .anchor) ∨ l.kind = .comment) {t : Line} (ht : t.kind = .title) (r : List Line) :
    ∀ seen, (seen = true ∨ ∀ l ∈ ms.head?, l.kind ≠ .comment) → takeMeta seen (ms ++ t :: r) = (ms, t :: r) := by
  induction ms with
  | nil => intro seen _; simp [takeMeta, ht]
  | cons m ms ih =>
    intro seen hs
    have := ih (fun l hl => h l (by simp [hl])) true (.inl rfl)
    rcases h m (by simp) with (hm | hm) | hm
    · simp [takeMeta, hm, this]
    · simp [takeMeta, hm, this]
    · have : seen = true := by
        rcases hs with hs | hs
        · exact hs
        · exact absurd hm (hs m (by simp))
      subst this
      simp [takeMeta, hm, this]

theorem isDocHeader_metas {ms : List Line} (h : ∀ l ∈ ms, (l.kind = .attrList ∨ l.kind = .anchor) ∨ l.kind = .comment) {t : Line} (ht : t.kind = .title) (r : List Line) :
    isDocHeader (ms ++ t :: r) = true := by
  induction ms with
  | nil => simp [isDocHeader, ht]
  | cons m ms ih =>
    have := ih (fun l hl => h l (by simp [hl]))
    rcases h m (by simp) with (hm | hm) | hm <;> simp [isDocHeader, hm, this]

theorem header_read {b : List Before} (hb : b.all Before.ok = true) {is : List Item} (hi : is.all Item.ok = true) (hasAuthor : Bool) {h : Head} (hh : h.ok hasAuthor = true) (body : List (List Line)) :
    parseHeader hasAuthor (b.flatMap Before.chunks ++ (linesOf is ++ h.lines) :: body) =
      (⟨some h.title, h.author, h.rev⟩, ⟨[], body⟩) := by
  obtain ⟨metas, t, au, rv, at_⟩ := h
  simp only [Head.ok, Bool.and_eq_true, decide_eq_true_eq, List.all_eq_true, Bool.or_eq_true] at hh
  obtain ⟨⟨⟨⟨⟨⟨h1, h0⟩, h2⟩, h3⟩, h4⟩, h5⟩, h6⟩ := hh
  have h0 : ∀ l ∈ metas.head?, l.kind ≠ .comment := by
    intro l hl
    rw [hl] at h0
    simpa using h0
  have hfirst : ∃ l ls, metas ++ t :: (au.toList ++ rv.toList ++ at_) = l :: ls ∧ startsBody l = true := by
    cases metas with
    | nil => exact ⟨t, _, rfl, by simp [startsBody, h2]⟩
    | cons m ms =>
      refine ⟨m, _, rfl, ?_⟩
      have := h0 m (by simp)
      rcases h1 m (by simp) with (hm | hm) | hm
      · simp [startsBody, hm]
      · simp [startsBody, hm]
      · exact absurd hm this
  obtain ⟨l, ls, e, hl⟩ := hfirst
  unfold parseHeader
  rw [P_of (by omega), P_befores hb, P_next, P_items hi, Head.lines, e, P_body hl, ← e]
  simp only
  rw [isDocHeader_metas h1 h2]
  have hna : skipAttrs (metas ++ t :: (au.toList ++ rv.toList ++ at_)) = metas ++ t :: (au.toList ++ rv.toList ++ at_) := by
    cases metas with
    | nil => simp [skipAttrs, h2]
    | cons m ms =>
      rcases h1 m (by simp) with (hm | hm) | hm <;> simp [skipAttrs, hm]
  rw [if_pos rfl, hna]
  have hne : ∃ x xs, metas ++ t :: (au.toList ++ rv.toList ++ at_) = x :: xs := ⟨l, ls, e⟩
  have htm := takeMeta_metas h1 h2 (au.toList ++ rv.toList ++ at_) false (.inr h0)
  have har : (authorRev hasAuthor t (au.toList ++ rv.toList ++ at_)).1 = ⟨some t, au, rv⟩ := by
    cases au with
    | none =>
      simp only [Option.isSome_none, Bool.false_eq_true, or_false, Option.isNone_iff_eq_none] at h4
      subst h4
      cases at_ with
      | nil => rfl
      | cons a as =>
        have := (h6 a (by simp)).1
        simp [authorRev, this]
    | some a =>
      simp only [Option.all_some, Bool.and_eq_true, decide_eq_true_eq] at h3
      cases rv with
      | none =>
        cases at_ with
        | nil => simp [authorRev, h3.1]
        | cons x xs =>
          have := (h6 x (by simp)).2
          simp only [Bool.not_eq_true'] at this
          simp [authorRev, h3.1, this]
      | some r =>
        simp only [Option.all_some] at h5
        have h7 : (hasAuthor || a.author) = true := by
          simp only [Option.isNone_some, Bool.false_or, Bool.or_eq_true] at h3
          rw [Bool.or_comm, Bool.or_eq_true]; exact h3.2.imp id (by simp)
        simp [authorRev, h3.1, h7, h5]
  unfold titleAuthorRev
  rw [htm]
  rw [e] at htm ⊢
  simp only [h2, if_true]
  rw [← har]

theorem no_header {b : List Before} (hb : b.all Before.ok = true) {is : List Item} (hi : is.all Item.ok = true) {l : Line} {ls : List Line} (hl : startsBody l = true)
    (hn : isDocHeader (l :: ls) = false) (body : List (List Line)) (hasAuthor : Bool) :
    parseHeader hasAuthor (b.flatMap Before.chunks ++ (linesOf is ++ l :: ls) :: body) = ({}, ⟨l :: ls, body⟩) := by
  unfold parseHeader
  rw [P_of (by omega), P_befores hb, P_next, P_items hi, P_body hl]
  simp [hn]

end Verif.DocHeader

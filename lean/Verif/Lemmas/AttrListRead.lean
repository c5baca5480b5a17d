import Verif.Lemmas.AttrList
/-!
Reading the pieces of an attribute list: no panic, and what an author writes is what is read.
-/
namespace Verif.AttrList
set_option linter.unusedSimpArgs false
open TokenKind

/-! ### no panic -/

theorem irScan_keyValue (supports : Bool) (total : Nat) (l : List Tk) (i : Nat) (saw saw' : Bool)
    (h : irScan supports total i saw l = (some .keyValue, saw')) :
    ∃ a t b, l = a ++ t :: b ∧ t.kind = EqualSigns ∧ (i = 0 → a ≠ []) := by
  induction l generalizing i saw with
  | nil => simp [irScan] at h
  | cons t ts ih =>
    have hrec : ∀ saw, irScan supports total (i + 1) saw ts = (some .keyValue, saw') →
        ∃ a u b, t :: ts = a ++ u :: b ∧ u.kind = EqualSigns ∧ (i = 0 → a ≠ []) := by
      intro saw h
      obtain ⟨a, u, b, e1, e2, _⟩ := ih _ _ h
      exact ⟨t :: a, u, b, by simp [e1], e2, by simp⟩
    simp only [irScan] at h
    split at h
    · cases h
    · split at h
      · exact hrec _ h
      · split at h
        · cases h
        · split at h
          · cases h
          · split at h
            · cases h
            · rename_i hne
              split at h
              · rename_i he
                exact ⟨[], t, ts, rfl, he.1, fun hi => absurd ⟨he.1, hi⟩ hne⟩
              · exact hrec _ h

theorem keyLoop_some (name : List Char) (a : List Tk) (t : Tk) (b : List Tk) (ht : t.kind = EqualSigns) :
    (keyLoop name (a ++ t :: b)).isSome := by
  induction a generalizing name with
  | nil => simp [keyLoop, ht]
  | cons x xs ih =>
    simp only [List.cons_append, keyLoop]
    split
    · rfl
    · split <;> exact ih _

theorem attrIr_some (toks : List Tk) (supports : Bool) : (attrIr toks supports).isSome := by
  unfold attrIr
  cases h : irScan supports toks.length 0 false toks with
  | mk k saw =>
    cases k with
    | none => rfl
    | some k =>
      cases k with
      | shorthand => rfl
      | positional => rfl
      | keyValue =>
        obtain ⟨a, t, b, e1, e2, e3⟩ := irScan_keyValue _ _ _ _ _ _ h
        cases a with
        | nil => exact absurd rfl (e3 rfl)
        | cons x xs =>
          simp only [e1, List.cons_append, parseKeyValue]
          have := keyLoop_some x.lexeme xs t b e2
          cases hk : keyLoop x.lexeme (xs ++ t :: b) with
          | none => simp [hk] at this
          | some r =>
            obtain ⟨n, r⟩ := r
            simp only [Option.bind_eq_bind, Option.bind_some]
            repeat' split
            all_goals rfl

theorem shorthandLoop_some (fuel : Nat) (a : Attrs) (l : List Tk) (hf : l.length < fuel)
    (hs : ∀ t, l.head? = some t → isStop t = true) : (shorthandLoop a fuel l).isSome := by
  induction fuel generalizing a l with
  | zero => omega
  | succ fuel ih =>
    cases l with
    | nil => rfl
    | cons t ts =>
      have hrest : ∀ a, (shorthandLoop a fuel (ts.dropWhile (!isStop ·))).isSome := by
        intro a
        refine ih a _ ?_ ?_
        · have := (List.dropWhile_sublist (!isStop ·) (l := ts)).length_le
          simp only [List.length_cons] at hf; omega
        · intro u hu
          have := List.head?_dropWhile_not (!isStop ·) ts
          rw [hu] at this
          simpa using this
      simp only [shorthandLoop]
      split
      · rfl
      · split
        · exact hrest _
        · split
          · split
            · rfl
            · exact hrest _
          · split
            · exact hrest _
            · rename_i h1 h2 h3
              have := hs t rfl
              simp only [isStop, decide_eq_true_eq] at this
              rcases this with h | h | h
              · exact absurd h h2
              · exact absurd h h3
              · exact absurd h h1

theorem irScan_shorthand (supports : Bool) (total : Nat) (l : List Tk) (i : Nat) (saw saw' : Bool)
    (h : irScan supports total i saw l = (some .shorthand, saw')) (hi : i ≠ 0) : False := by
  induction l generalizing i saw with
  | nil => simp [irScan] at h
  | cons t ts ih =>
    simp only [irScan] at h
    split at h
    · rename_i hc; exact hi hc.2.2.1
    · repeat' split at h
      all_goals first
        | exact ih _ _ h (by omega)
        | cases h

theorem irScan_shorthand_head (supports : Bool) (total : Nat) (l : List Tk) (saw saw' : Bool)
    (h : irScan supports total 0 saw l = (some .shorthand, saw')) :
    total > 1 ∧ ∀ t, l.head? = some t → isStop t = true := by
  cases l with
  | nil => simp [irScan] at h
  | cons t ts =>
    simp only [irScan] at h
    split at h
    · rename_i hc
      refine ⟨hc.2.2.2.2, fun u hu => ?_⟩
      cases hu
      have := hc.1
      simp only [isSym, decide_eq_true_eq] at this
      simp only [isStop, decide_eq_true_eq]
      rcases this with h | h | h
      · exact Or.inr (Or.inr ⟨h, hc.2.2.2.1⟩)
      · exact Or.inl h
      · exact Or.inr (Or.inl h)
    · repeat' split at h
      all_goals first
        | exact (irScan_shorthand _ _ _ _ _ _ h (by omega)).elim
        | cases h

theorem irScan_saw (supports : Bool) (total : Nat) (l : List Tk) (i : Nat) (saw : Bool)
    (h : (irScan supports total i saw l).2 = true) : saw = true ∨ ∃ t ∈ l, isSym t.kind = true := by
  induction l generalizing i saw with
  | nil => exact Or.inl (by simpa [irScan] using h)
  | cons t ts ih =>
    simp only [irScan] at h
    split at h
    · exact Or.inl h
    · split at h
      · rename_i hc; exact Or.inr ⟨t, by simp, hc.1⟩
      · repeat' split at h
        all_goals first
          | exact Or.inl h
          | (rcases ih _ _ h with h | ⟨u, hu, hs⟩
             · exact Or.inl h
             · exact Or.inr ⟨u, by simp [hu], hs⟩)

theorem unquote_same {l : List Tk} (h : (unquote l).length = l.length) : unquote l = l := by
  unfold unquote at h ⊢
  split
  · rename_i hc
    rw [if_pos hc] at h
    simp only [List.length_dropLast, List.length_tail] at h
    omega
  · rfl

/-- what a positional attribute holds -/
theorem attrIr_positional {toks : List Tk} {supports : Bool} {t : List Tk} {sh : Bool}
    (h : attrIr toks supports = some (.positional t sh)) :
    t = unquote toks ∧ (sh = true → t = toks ∧ ∃ u ∈ toks, isSym u.kind = true) := by
  unfold attrIr at h
  have hkv : ∀ l, parseKeyValue l ≠ some (.positional t sh) := by
    intro l h
    cases l with
    | nil => simp [parseKeyValue] at h
    | cons x xs =>
      simp only [parseKeyValue] at h
      cases hk : keyLoop x.lexeme xs with
      | none => simp [hk] at h
      | some r =>
        obtain ⟨n, r⟩ := r
        simp only [hk, Option.bind_eq_bind, Option.bind_some] at h
        repeat' split at h
        all_goals cases h
  cases hs : irScan supports toks.length 0 false toks with
  | mk k saw =>
    have fin : unquote toks = t → (saw && decide ((unquote toks).length = toks.length)) = sh →
        t = unquote toks ∧ (sh = true → t = toks ∧ ∃ u ∈ toks, isSym u.kind = true) := by
      intro e1 e2
      refine ⟨e1.symm, fun hsh => ?_⟩
      rw [hsh] at e2
      simp only [Bool.and_eq_true, decide_eq_true_eq] at e2
      refine ⟨by rw [← e1]; exact unquote_same e2.2, ?_⟩
      have := irScan_saw supports toks.length toks 0 false (by rw [hs]; exact e2.1)
      simpa using this
    rw [hs] at h
    cases k with
    | none =>
      simp only [Option.some.injEq, Ir.positional.injEq] at h
      exact fin h.1 h.2
    | some k =>
      cases k with
      | shorthand => simp at h
      | keyValue => exact absurd h (hkv _)
      | positional =>
        simp only [Option.some.injEq, Ir.positional.injEq] at h
        exact fin h.1 h.2

theorem attrIr_shorthand {toks : List Tk} {supports : Bool} {t : List Tk}
    (h : attrIr toks supports = some (.shorthand t)) :
    t = toks ∧ toks.length > 1 ∧ ∀ u, toks.head? = some u → isStop u = true := by
  unfold attrIr at h
  cases hs : irScan supports toks.length 0 false toks with
  | mk k saw =>
    rw [hs] at h
    cases k with
    | none => simp at h
    | some k =>
      cases k with
      | positional => simp at h
      | shorthand =>
        simp only [Option.some.injEq, Ir.shorthand.injEq] at h
        exact ⟨h.symm, irScan_shorthand_head _ _ _ _ _ hs⟩
      | keyValue =>
        exfalso
        cases htk : toks with
        | nil => rw [htk] at hs; simp [irScan] at hs
        | cons x xs =>
          simp only [htk, parseKeyValue] at h
          cases hk : keyLoop x.lexeme xs with
          | none => simp [hk] at h
          | some r =>
            obtain ⟨n, r⟩ := r
            simp only [hk, Option.bind_eq_bind, Option.bind_some] at h
            repeat' split at h
            all_goals cases h

theorem dropWhile_head_not {l : List Tk} {p : Tk → Bool} (h : ∃ t ∈ l, p t = false) :
    ∃ u us, l.dropWhile p = u :: us ∧ p u = false := by
  induction l with
  | nil => obtain ⟨t, ht, _⟩ := h; simp at ht
  | cons x xs ih =>
    by_cases hx : p x = true
    · obtain ⟨t, ht, hp⟩ := h
      rcases List.mem_cons.mp ht with e | e
      · subst e; rw [hx] at hp; cases hp
      · simpa [List.dropWhile_cons, hx] using ih ⟨t, e, hp⟩
    · exact ⟨x, xs, by simp [List.dropWhile_cons, hx], by simpa using hx⟩

theorem trim_head {l : List Tk} {u : Tk} {us : List Tk} (h : l = u :: us) (hw : u.kind ≠ Whitespace) :
    ∃ us', trim l = u :: us' := by
  subst h
  unfold trim
  simp only [List.dropWhile_cons, hw, decide_false, Bool.false_eq_true, if_false, List.reverse_cons]
  have : ∀ r : List Tk, ∃ us', ((r ++ [u]).dropWhile (·.kind = Whitespace)).reverse = u :: us' := by
    intro r
    induction r with
    | nil => exact ⟨[], by simp [List.dropWhile_cons, hw]⟩
    | cons y ys ih =>
      simp only [List.cons_append, List.dropWhile_cons]
      split
      · exact ih
      · exact ⟨(y :: ys).reverse, by simp⟩
  exact this _

theorem parseAttr_some_inner (a : Attrs) (l : List Tk) (u : Tk) (us : List Tk) (hl : l = u :: us)
    (hu : isSym u.kind = true) : (parseAttr false 1 true l a).isSome := by
  have hw : u.kind ≠ Whitespace := by intro h; rw [h] at hu; exact absurd hu (by decide)
  obtain ⟨us', ht⟩ := trim_head hl hw
  simp only [parseAttr]
  rw [if_neg (by rw [ht]; simp)]
  have := attrIr_some (trim l) true
  cases hir : attrIr (trim l) true with
  | none => simp [hir] at this
  | some ir =>
    simp only [Option.bind_eq_bind, Option.bind_some, Bool.false_eq_true, if_false, Bool.and_true]
    cases ir with
    | positional t sh =>
      simp only
      cases sh with
      | false => rfl
      | true =>
        have hp := attrIr_positional hir
        obtain ⟨e, _⟩ := hp.2 rfl
        rw [if_pos rfl, e, ht]
        simp [List.takeWhile_cons, List.dropWhile_cons, hu, nonAttr]
    | named n t => rfl
    | options g => rfl
    | roles g => rfl
    | id t =>
      simp only [toStr]
      split
      · rfl
      · split <;> rfl
    | shorthand t =>
      obtain ⟨e, h1, h2⟩ := attrIr_shorthand hir
      simp only
      rw [if_neg (by rw [e]; omega)]
      exact shorthandLoop_some _ _ _ (by omega) (by rw [e]; exact h2)

/-- reading a piece outside formatted text never panics -/
theorem attr_some (supports : Bool) (a : Attrs) (l : List Tk) : (attr false supports a l).isSome := by
  unfold attr
  rw [parseAttr]
  split
  · rfl
  · have := attrIr_some (trim l) supports
    cases hir : attrIr (trim l) supports with
    | none => simp [hir] at this
    | some ir =>
      simp only [Option.bind_eq_bind, Option.bind_some, Bool.false_eq_true, if_false]
      cases ir with
      | positional t sh =>
        simp only
        split
        · rename_i hc
          simp only [Bool.and_eq_true] at hc
          have hp := attrIr_positional hir
          obtain ⟨e, v, hv, hs⟩ := hp.2 hc.1
          obtain ⟨u, us, e1, e2⟩ := dropWhile_head_not (l := t) (p := fun x => !isSym x.kind)
            ⟨v, by rw [e]; exact hv, by simp [hs]⟩
          rw [e1]
          split
          · rename_i h; cases h
          · split
            · rfl
            · exact parseAttr_some_inner _ _ u us rfl (by simpa using e2)
        · rfl
      | named n t => rfl
      | options g => rfl
      | roles g => rfl
      | id t =>
        simp only [toStr]
        split
        · rfl
        · split <;> rfl
      | shorthand t =>
        obtain ⟨e, h1, h2⟩ := attrIr_shorthand hir
        simp only
        rw [if_neg (by rw [e]; omega)]
        exact shorthandLoop_some _ _ _ (by omega) (by rw [e]; exact h2)

theorem foldlM_attr_some (supports : Bool) (ps : List (List Tk)) (a : Attrs) :
    (ps.foldlM (attr false supports) a).isSome := by
  induction ps generalizing a with
  | nil => rfl
  | cons p ps ih =>
    have := attr_some supports a p
    cases h : attr false supports a p with
    | none => simp [h] at this
    | some a' => simpa [List.foldlM_cons, h] using ih a'

/-- outside formatted text the pieces are read one after the other -/
theorem parse_of_pieces {fullLine supports : Bool} {line : List Tk} {ps : List (List Tk)} {close : Tk}
    {rest : List Tk} (hne : ps ≠ []) (hfirst : line.head?.map (·.kind) ≠ some CloseBracket) (hline : line ≠ [])
    (hk : close.kind = CloseBracket) (hp : pieces fullLine line = some (ps, close :: rest)) :
    parse fullLine false supports line = (ps.foldlM (attr false supports) {}).map (·, rest) := by
  cases line with
  | nil => exact absurd rfl hline
  | cons t ts =>
    have ht : t.kind ≠ CloseBracket := by simpa using hfirst
    simp only [parse, if_neg ht, hp, Option.bind_eq_bind, Option.bind_some, Bool.not_false, Bool.true_or, if_true,
      hk]
    obtain ⟨init, last, rfl⟩ : ∃ init last, ps = init ++ [last] :=
      ⟨ps.dropLast, ps.getLast hne, (List.dropLast_concat_getLast hne).symm⟩
    simp only [List.dropLast_concat, List.getLast?_concat, Option.getD_some, List.foldlM_append,
      List.foldlM_cons, List.foldlM_nil]
    cases init.foldlM (attr false supports) {} with
    | none => rfl
    | some a =>
      simp only [Option.bind_some, Option.bind_eq_bind, Option.pure_def]
      cases attr false supports a last <;> rfl

/-! ### what an author writes -/

/-- read as a whole: no comma to cut at, every quoted string complete -/
def Bal (l : List Tk) : Prop :=
  ∀ cur ts, topSplit cur none (l ++ ts) = topSplit (cur ++ l) none ts ∧ noStray none (l ++ ts) = noStray none ts

theorem Bal.nil : Bal [] := fun cur ts => by simp

theorem Bal.append {a b : List Tk} (ha : Bal a) (hb : Bal b) : Bal (a ++ b) := by
  intro cur ts
  rw [List.append_assoc, (ha cur (b ++ ts)).1, (hb (cur ++ a) ts).1, (ha cur (b ++ ts)).2, (hb cur ts).2]
  simp

theorem Bal.plain {t : Tk} (hq : isQuote t.kind = false) (hc : t.kind ≠ Comma) : Bal [t] := by
  intro cur ts
  simp [topSplit, noStray, hq, hc]

theorem Bal.plains {l : List Tk} (h : ∀ t ∈ l, isQuote t.kind = false ∧ t.kind ≠ Comma) : Bal l := by
  induction l with
  | nil => exact Bal.nil
  | cons t ts ih =>
    have := Bal.append (Bal.plain (h t (by simp)).1 (h t (by simp)).2) (ih (fun u hu => h u (by simp [hu])))
    simpa using this

theorem topSplit_inside (q : TokenKind) (v : List Tk) (hv : ∀ t ∈ v, t.kind ≠ q) (e : Tk) (he : e.kind = q)
    (cur ts : List Tk) : topSplit cur (some q) (v ++ e :: ts) = topSplit (cur ++ v ++ [e]) none ts := by
  induction v generalizing cur with
  | nil => simp [topSplit, he]
  | cons t v ih =>
    simp only [List.cons_append, topSplit, if_neg (hv t (by simp))]
    rw [ih (fun u hu => hv u (by simp [hu]))]
    simp

theorem noStray_inside (q : TokenKind) (v : List Tk) (hv : ∀ t ∈ v, t.kind ≠ q) (e : Tk) (he : e.kind = q)
    (even : Bool) (hp : ((v.filter (·.kind = other q)).length % 2 = 0) = (even = true)) (ts : List Tk) :
    noStray (some (q, even)) (v ++ e :: ts) = noStray none ts := by
  induction v generalizing even with
  | nil =>
    have : even = true := by simpa using hp
    simp [noStray, he, this]
  | cons t v ih =>
    simp only [List.cons_append, noStray, if_neg (hv t (by simp))]
    apply ih (fun u hu => hv u (by simp [hu]))
    by_cases ht : t.kind = other q
    · simp only [List.filter_cons, ht, decide_true, if_true, List.length_cons] at hp ⊢
      cases even <;> simp at hp ⊢ <;> omega
    · simpa [List.filter_cons, ht] using hp

theorem quote_isQuote (d : Bool) : isQuote (quote d).kind = true := by cases d <;> rfl

theorem Bal.quoted {d : Bool} {v : List Tk} (hv : okValue d v = true) : Bal (quote d :: v ++ [quote d]) := by
  simp only [okValue, Bool.and_eq_true, List.all_eq_true, decide_eq_true_eq] at hv
  have hne : ∀ t ∈ v, t.kind ≠ (quote d).kind := fun t ht => (hv.1 t ht).1.1
  intro cur ts
  have ho : occurs (quote d).kind (v ++ quote d :: ts) = true := by simp [occurs]
  have hc : (quote d).kind ≠ Comma := by cases d <;> decide
  constructor
  · simp only [List.cons_append, List.append_assoc, topSplit, if_neg hc, List.nil_append]
    rw [if_pos ⟨quote_isQuote d, ho⟩, topSplit_inside _ v hne _ rfl]
    simp
  · simp only [List.cons_append, List.append_assoc, noStray, List.nil_append]
    rw [if_pos ⟨quote_isQuote d, ho⟩, noStray_inside _ v hne _ rfl true (by simp [hv.2])]

theorem wordsValue_ok (d : Bool) (w : List Char) (ws : List (List Char)) (sep : Tk)
    (hs : isQuote sep.kind = false) (h1 : sep.kind ≠ CloseBracket) (h2 : sep.kind ≠ AttrRef) :
    okValue d (word w :: ws.flatMap (fun w => [sep, word w])) = true := by
  have hsq : sep.kind ≠ DoubleQuote ∧ sep.kind ≠ SingleQuote := by
    simp only [isQuote, decide_eq_false_iff_not, not_or] at hs; exact hs
  have hmem : ∀ t ∈ word w :: ws.flatMap (fun w => [sep, word w]), t = sep ∨ t.kind = Word := by
    intro t ht
    simp only [List.mem_cons, List.mem_flatMap, List.not_mem_nil, or_false] at ht
    rcases ht with h | ⟨x, _, h | h⟩
    · right; rw [h]; rfl
    · exact Or.inl h
    · right; rw [h]; rfl
  have hfil : (word w :: ws.flatMap (fun w => [sep, word w])).filter
      (fun t => decide (t.kind = other (quote d).kind)) = [] := by
    rw [List.filter_eq_nil_iff]
    intro t ht
    rcases hmem t ht with h | h
    · subst h; cases d <;> simp [other, quote, hsq.1, hsq.2]
    · cases d <;> simp [other, quote, h]
  simp only [okValue, Bool.and_eq_true, List.all_eq_true, decide_eq_true_eq]
  refine ⟨fun t ht => ?_, by rw [hfil]; rfl⟩
  rcases hmem t ht with h | h
  · subst h; cases d <;> simp [quote, hsq.1, hsq.2, h1, h2]
  · cases d <;> simp [quote, h]

theorem mark_plain (m : Mark) : isQuote m.tk.kind = false ∧ m.tk.kind ≠ Comma := by cases m <;> decide

theorem written_bal {w : Written} (h : w.ok = true) : Bal w.toks := by
  have hw : ∀ x, Bal [word x] := fun x => Bal.plain rfl (by simp [word])
  have he : Bal [⟨EqualSigns, ['=']⟩] := Bal.plain rfl (by decide)
  cases w with
  | nothing => exact Bal.nil
  | word x => exact hw x
  | quoted d v => exact Bal.quoted h
  | namedWord k x => exact Bal.append (hw k) (Bal.append he (hw x))
  | named k d v =>
    simp only [Written.ok, Bool.and_eq_true] at h
    have := Bal.append (hw k) (Bal.append he (Bal.quoted h.2))
    exact this
  | roles d x xs =>
    have := Bal.append (hw "role".toList) (Bal.append he (Bal.quoted
      (wordsValue_ok d x xs ⟨Whitespace, [' ']⟩ rfl (by decide) (by decide))))
    exact this
  | options d x xs =>
    have := Bal.append (hw "options".toList) (Bal.append he (Bal.quoted
      (wordsValue_ok d x xs ⟨Comma, [',']⟩ rfl (by decide) (by decide))))
    exact this
  | shorthand style m ms =>
    have hm : Bal (markToks (m :: ms)) := by
      apply Bal.plains
      intro t ht
      simp only [markToks, List.mem_flatMap, List.mem_cons, List.not_mem_nil, or_false] at ht
      obtain ⟨x, _, h | h⟩ := ht
      · rw [h]; exact mark_plain _
      · rw [h]; exact ⟨rfl, by simp [word]⟩
    cases style with
    | none => exact hm
    | some s => exact Bal.append (hw s) hm

theorem ws_plain {l : List Tk} (h : l.all (·.kind = Whitespace) = true) :
    ∀ t ∈ l, isQuote t.kind = false ∧ t.kind ≠ Comma := by
  intro t ht
  have := (List.all_eq_true.mp h) t ht
  simp only [decide_eq_true_eq] at this
  rw [this]; decide

theorem spaced_bal {s : Spaced} (h : s.ok = true) : Bal s.toks := by
  simp only [Spaced.ok, Bool.and_eq_true] at h
  exact Bal.append (Bal.append (Bal.plains (ws_plain h.1.1)) (written_bal h.2)) (Bal.plains (ws_plain h.1.2))

theorem writeList_split (s : Spaced) (ss : List Spaced) (h : ∀ x ∈ s :: ss, x.ok = true) :
    topSplit [] none (writeList s ss) = (s :: ss).map Spaced.toks ∧ noStray none (writeList s ss) = true := by
  induction ss generalizing s with
  | nil =>
    have hb := spaced_bal (h s (by simp)) [] []
    simp only [List.append_nil, List.nil_append] at hb
    exact ⟨by rw [writeList, hb.1]; rfl, by rw [writeList, hb.2]; rfl⟩
  | cons s' ss ih =>
    have hb := spaced_bal (h s (by simp)) [] (⟨Comma, [',']⟩ :: writeList s' ss)
    obtain ⟨e1, e2⟩ := ih s' (fun x hx => h x (by simp [hx]))
    constructor
    · rw [writeList, hb.1]
      simp [topSplit, e1]
    · rw [writeList, hb.2]
      simpa [noStray, isQuote] using e2

theorem dropWhile_all {l r : List Tk} (h : l.all (·.kind = Whitespace) = true) :
    (l ++ r).dropWhile (·.kind = Whitespace) = r.dropWhile (·.kind = Whitespace) := by
  induction l with
  | nil => rfl
  | cons t ts ih =>
    simp only [List.all_cons, Bool.and_eq_true] at h
    simp [List.dropWhile_cons, h.1, ih h.2]

theorem dropWhile_head {l : List Tk} (h : l.head?.map (·.kind) ≠ some Whitespace) :
    l.dropWhile (·.kind = Whitespace) = l := by
  cases l with
  | nil => rfl
  | cons t ts =>
    have : t.kind ≠ Whitespace := by simpa using h
    simp [List.dropWhile_cons, this]

theorem trim_spaced (b l a : List Tk) (hb : b.all (·.kind = Whitespace) = true)
    (ha : a.all (·.kind = Whitespace) = true) (h1 : l.head?.map (·.kind) ≠ some Whitespace)
    (h2 : l.getLast?.map (·.kind) ≠ some Whitespace) : trim (b ++ l ++ a) = l := by
  unfold trim
  rw [List.append_assoc, dropWhile_all hb]
  cases l with
  | nil =>
    have := dropWhile_all (r := []) ha
    simp only [List.append_nil] at this
    simp [this]
  | cons t ts =>
    rw [dropWhile_head (l := t :: ts ++ a) (by simpa using h1)]
    have hr : a.reverse.all (·.kind = Whitespace) = true := by simpa using ha
    rw [List.reverse_append, dropWhile_all hr, dropWhile_head (by
      rw [List.head?_reverse]; exact h2), List.reverse_reverse]

theorem markToks_mem {ms : List (Mark × List Char)} {t : Tk} (h : t ∈ markToks ms) :
    (∃ m : Mark, t = m.tk) ∨ t.kind = Word := by
  simp only [markToks, List.mem_flatMap, List.mem_cons, List.not_mem_nil, or_false] at h
  obtain ⟨x, _, h | h⟩ := h
  · exact Or.inl ⟨x.1, h⟩
  · right; rw [h]; rfl

theorem toks_ends (w : Written) :
    w.toks.head?.map (·.kind) ≠ some Whitespace ∧ w.toks.getLast?.map (·.kind) ≠ some Whitespace := by
  have hmem : ∀ l : List Tk, (∀ t ∈ l, t.kind ≠ Whitespace) →
      l.head?.map (·.kind) ≠ some Whitespace ∧ l.getLast?.map (·.kind) ≠ some Whitespace := by
    intro l h
    constructor
    · intro e
      cases hh : l.head? with
      | none => simp [hh] at e
      | some t =>
        simp only [hh, Option.map_some, Option.some.injEq] at e
        exact h t (List.mem_of_mem_head? hh) e
    · intro e
      cases hh : l.getLast? with
      | none => simp [hh] at e
      | some t =>
        simp only [hh, Option.map_some, Option.some.injEq] at e
        exact h t (List.mem_of_getLast? hh) e
  have hq : ∀ d, (quote d).kind ≠ Whitespace := by intro d; cases d <;> decide
  cases w with
  | nothing => simp [Written.toks]
  | word x => simp [Written.toks, word]
  | quoted d v =>
    simp only [Written.toks]
    refine ⟨by simpa using hq d, ?_⟩
    rw [List.getLast?_concat]; simpa using hq d
  | namedWord k x => simp [Written.toks, word]
  | named k d v =>
    simp only [Written.toks]
    refine ⟨by simp [word], ?_⟩
    rw [List.getLast?_concat]; simpa using hq d
  | roles d x xs =>
    simp only [Written.toks]
    refine ⟨by simp [word], ?_⟩
    rw [List.getLast?_concat]; simpa using hq d
  | options d x xs =>
    simp only [Written.toks]
    refine ⟨by simp [word], ?_⟩
    rw [List.getLast?_concat]; simpa using hq d
  | shorthand style m ms =>
    apply hmem
    intro t ht
    simp only [Written.toks, List.mem_append] at ht
    rcases ht with h | h
    · cases style with
      | none => simp at h
      | some s => simp only [List.mem_cons, List.not_mem_nil, or_false] at h; rw [h]; simp [word]
    · rcases markToks_mem h with ⟨m, h⟩ | h
      · rw [h]; cases m <;> decide
      · rw [h]; decide

theorem unquote_quoted (d : Bool) (v : List Tk) : unquote (quote d :: v ++ [quote d]) = v := by
  unfold unquote
  rw [if_pos]
  · simp
  · refine ⟨by simp, ?_⟩
    have : (quote d :: v ++ [quote d]).getLast? = some (quote d) := List.getLast?_concat
    rw [this]
    cases d <;> simp [quote]

theorem unquote_head {t : Tk} {ts : List Tk} (h : isQuote t.kind = false) : unquote (t :: ts) = t :: ts := by
  simp only [isQuote, decide_eq_false_iff_not, not_or] at h
  unfold unquote
  rw [if_neg]
  simp [h.1, h.2]

theorem kv_scan (k : List Char) (rest : List Tk) (supports : Bool) (total : Nat) (saw : Bool) :
    irScan supports total 0 saw (word k :: ⟨EqualSigns, ['=']⟩ :: rest) = (some .keyValue, saw) := by
  simp [irScan, word, isSym, Tk.len]

theorem attrIr_kv (k : List Char) (rest : List Tk) (supports : Bool)
    (hr : rest.head?.map (·.kind) ≠ some Whitespace) :
    attrIr (word k :: ⟨EqualSigns, ['=']⟩ :: rest) supports =
      (if k = "options".toList ∨ k = "opts".toList then some (.options (subgroups Comma (unquote rest)))
       else if k = "role".toList then some (.roles (subgroups Whitespace (unquote rest)))
       else if k = "id".toList then some (.id (unquote rest))
       else some (.named k (unquote rest))) := by
  unfold attrIr
  rw [kv_scan]
  simp only [parseKeyValue, keyLoop, if_true, Option.bind_eq_bind, Option.bind_some, if_neg hr]
  rfl

theorem subgroups_words (sep : Tk) (hs : sep.kind ≠ Word) (w : List Char) (ws : List (List Char)) :
    subgroups sep.kind (word w :: ws.flatMap (fun w => [sep, word w])) = (w :: ws).map (fun w => [word w]) := by
  have htrim : ∀ w, trim [word w] = [word w] := by intro w; simp [trim, List.dropWhile_cons, word]
  have hne : ∀ w, (word w).kind ≠ sep.kind := fun w e => hs (by rw [← e]; rfl)
  have hna : ∀ w, nonAttr [word w] = [word w] := by intro w; simp [nonAttr, word]
  have loop : ∀ (ws : List (List Char)) (w : List Char),
      subgroupsLoop sep.kind [word w] (ws.flatMap (fun w => [sep, word w])) = (w :: ws).map (fun w => [word w]) := by
    intro ws
    induction ws with
    | nil => intro w; simp [subgroupsLoop, htrim]
    | cons x xs ih =>
      intro w
      simp only [List.flatMap_cons, List.cons_append, List.nil_append, subgroupsLoop, if_true, htrim,
        if_neg (hne x), hna, ih]
      simp
  unfold subgroups
  rw [subgroupsLoop, if_neg (hne w), hna, List.nil_append, loop]

theorem groupTexts_words (ws : List (List Char)) : groupTexts (ws.map (fun w => [word w])) = ws := by
  induction ws with
  | nil => rfl
  | cons w ws ih =>
    simp only [groupTexts, List.map_cons, List.filter_cons] at ih ⊢
    simp only [ne_eq, List.cons_ne_nil, not_false_eq_true, decide_true, if_true, List.map_cons, ih]
    simp [Tk.text, word]

theorem mark_stop (m : Mark) : isStop m.tk = true := by cases m <;> decide
theorem word_not_stop (w : List Char) : isStop (word w) = false := by rfl

theorem takeDrop_marks (w : List Char) (ms : List (Mark × List Char)) :
    (word w :: markToks ms).takeWhile (!isStop ·) = [word w] ∧
      (word w :: markToks ms).dropWhile (!isStop ·) = markToks ms := by
  cases ms with
  | nil => simp [markToks, List.takeWhile_cons, List.dropWhile_cons, word_not_stop]
  | cons m ms =>
    simp [markToks, List.takeWhile_cons, List.dropWhile_cons, word_not_stop, mark_stop]

/-- ids among the marks -/
def markIds (ms : List (Mark × List Char)) : Nat := (ms.filter (·.1 = .id)).length

theorem shorthandLoop_marks (ms : List (Mark × List Char)) (a : Attrs) (fuel : Nat)
    (hf : (markToks ms).length < fuel) (hid : markIds ms ≤ if a.id.isSome then 0 else 1) :
    shorthandLoop a fuel (markToks ms) = some (ms.foldl applyMark a) := by
  induction ms generalizing a fuel with
  | nil =>
    cases fuel with
    | zero => omega
    | succ n => rfl
  | cons m ms ih =>
    cases fuel with
    | zero => omega
    | succ n =>
      obtain ⟨mk, w⟩ := m
      have e : markToks ((mk, w) :: ms) = mk.tk :: word w :: markToks ms := by simp [markToks]
      have hl : (markToks ms).length < n := by
        rw [e] at hf; simp only [List.length_cons] at hf; omega
      rw [e, shorthandLoop]
      simp only [(takeDrop_marks w ms).1, (takeDrop_marks w ms).2, List.cons_ne_nil, if_false, List.foldl_cons]
      have ht : Tk.text [word w] = w := by simp [Tk.text, word]
      rw [ht]
      cases mk with
      | role =>
        have : markIds ms ≤ if a.id.isSome then 0 else 1 := by simpa [markIds] using hid
        simp only [Mark.tk, Tk.len]
        simp only [List.length_cons, List.length_nil, Nat.zero_add, and_self, if_true]
        exact ih _ _ hl this
      | id =>
        have h0 : a.id.isSome = false ∧ markIds ms = 0 := by
          have hid' : markIds ms + 1 ≤ if a.id.isSome then 0 else 1 := by
            simpa [markIds] using hid
          split at hid'
          · omega
          · rename_i h; exact ⟨by simpa using h, by omega⟩
        simp only [Mark.tk, reduceCtorEq, false_and, if_false, if_true, h0.1, Bool.false_eq_true]
        rw [ih _ _ hl (by rw [h0.2]; simp)]; rfl
      | option =>
        have : markIds ms ≤ if a.id.isSome then 0 else 1 := by simpa [markIds] using hid
        simp only [Mark.tk, reduceCtorEq, false_and, if_false, if_true]
        exact ih _ _ hl this

theorem markToks_length (ms : List (Mark × List Char)) : (markToks ms).length = 2 * ms.length := by
  induction ms with
  | nil => rfl
  | cons m ms ih => simp only [markToks, List.flatMap_cons, List.length_append] at ih ⊢; simp [ih]; omega

theorem attrIr_marks (m : Mark × List Char) (ms : List (Mark × List Char)) :
    attrIr (markToks (m :: ms)) true = some (.shorthand (markToks (m :: ms))) := by
  have hl := markToks_length (m :: ms)
  obtain ⟨mk, w⟩ := m
  have e : markToks ((mk, w) :: ms) = mk.tk :: word w :: markToks ms := by simp [markToks]
  unfold attrIr
  rw [hl, e, irScan]
  rw [if_pos]
  refine ⟨by cases mk <;> rfl, rfl, rfl, by cases mk <;> rfl, by simp only [List.length_cons]; omega⟩

theorem irScan_marks (m : Mark × List Char) (ms : List (Mark × List Char)) (total i : Nat) (hi : i ≠ 0)
    (saw : Bool) : irScan true total i saw (markToks (m :: ms)) = (none, true) := by
  induction ms generalizing m i saw with
  | nil =>
    obtain ⟨mk, w⟩ := m
    cases mk <;> simp [markToks, irScan, Mark.tk, word, isSym, hi, Tk.len]
  | cons m' ms ih =>
    obtain ⟨mk, w⟩ := m
    have e : markToks ((mk, w) :: m' :: ms) = mk.tk :: word w :: markToks (m' :: ms) := by
      simp [markToks]
    have hstep : ∀ saw, irScan true total i saw (markToks ((mk, w) :: m' :: ms)) =
        irScan true total (i + 1 + 1) true (markToks (m' :: ms)) := by
      intro saw
      rw [e]
      cases mk <;> simp [irScan, Mark.tk, word, isSym, hi, Tk.len]
    rw [hstep, ih m' (i + 1 + 1) (by omega)]

/-- what is written is what is read -/
theorem attr_written (supports : Bool) (a : Attrs) (s : Spaced) (hok : s.ok = true)
    (hid : s.attr.ids ≤ if a.id.isSome then 0 else 1)
    (hsh : supports = false → ∀ st m ms, s.attr ≠ .shorthand st m ms) :
    attr false supports a s.toks = some (s.attr.apply a) := by
  simp only [Spaced.ok, Bool.and_eq_true] at hok
  have ht : trim s.toks = s.attr.toks :=
    trim_spaced _ _ _ hok.1.1 hok.1.2 (toks_ends s.attr).1 (toks_ends s.attr).2
  unfold attr
  rw [parseAttr, ht]
  cases hw : s.attr with
  | nothing => simp [Written.toks, Written.apply]
  | word x =>
    have : attrIr [word x] supports = some (.positional [word x] false) := by
      simp [attrIr, irScan, word, isSym, unquote]
    simp [Written.toks, Written.apply, this]
  | quoted d v =>
    have : attrIr (quote d :: v ++ [quote d]) supports = some (.positional v false) := by
      have hs : irScan supports (quote d :: v ++ [quote d]).length 0 false (quote d :: v ++ [quote d])
          = (some .positional, false) := by
        cases d <;> simp [irScan, quote, isSym]
      unfold attrIr
      rw [hs]
      simp only [unquote_quoted, Bool.false_and]
    simp only [Written.toks, this]
    simp [Written.apply]
  | namedWord k x =>
    rw [hw] at hok
    simp only [Written.ok, okName, Bool.and_eq_true, decide_eq_true_eq] at hok
    have : attrIr [word k, ⟨EqualSigns, ['=']⟩, word x] supports = some (.named k [word x]) := by
      rw [attrIr_kv k [word x] supports (by simp [word])]
      obtain ⟨_, ⟨⟨h1, h2⟩, h3⟩, h4⟩ := hok
      rw [if_neg (by simp only [not_or]; exact ⟨h1, h2⟩), if_neg h3, if_neg h4, unquote_head rfl]
    simp [Written.toks, Written.apply, this, Attrs.insertNamed]
  | named k d v =>
    rw [hw] at hok
    simp only [Written.ok, okName, Bool.and_eq_true, decide_eq_true_eq] at hok
    have : attrIr (word k :: ⟨EqualSigns, ['=']⟩ :: quote d :: v ++ [quote d]) supports = some (.named k v) := by
      have := attrIr_kv k (quote d :: v ++ [quote d]) supports (by cases d <;> simp [quote])
      obtain ⟨_, ⟨⟨⟨h1, h2⟩, h3⟩, h4⟩, _⟩ := hok
      rw [if_neg (by simp only [not_or]; exact ⟨h1, h2⟩), if_neg h3, if_neg h4, unquote_quoted] at this
      exact this
    simp only [Written.toks, this]
    simp [Written.apply, Attrs.insertNamed]
  | roles d x xs =>
    have : attrIr (Written.roles d x xs).toks supports =
        some (.roles ((x :: xs).map (fun w => [word w]))) := by
      have := attrIr_kv "role".toList (quote d :: (word x :: xs.flatMap (fun w => [⟨Whitespace, [' ']⟩, word w])) ++
        [quote d]) supports (by cases d <;> simp [quote])
      rw [if_neg (by decide), if_pos rfl, unquote_quoted] at this
      rw [← subgroups_words ⟨Whitespace, [' ']⟩ (by decide)]
      exact this
    rw [if_neg (by simp [Written.toks]), this]
    simp only [Option.bind_eq_bind, Option.bind_some, Bool.false_eq_true, if_false, groupTexts_words]
    rfl
  | options d x xs =>
    have : attrIr (Written.options d x xs).toks supports =
        some (.options ((x :: xs).map (fun w => [word w]))) := by
      have := attrIr_kv "options".toList (quote d :: (word x :: xs.flatMap (fun w => [⟨Comma, [',']⟩, word w])) ++
        [quote d]) supports (by cases d <;> simp [quote])
      rw [if_pos (Or.inl rfl), unquote_quoted] at this
      rw [← subgroups_words ⟨Comma, [',']⟩ (by decide)]
      exact this
    rw [if_neg (by simp [Written.toks]), this]
    simp only [Option.bind_eq_bind, Option.bind_some, Bool.false_eq_true, if_false, groupTexts_words]
    rfl
  | shorthand style m ms =>
    have hsup : supports = true := by
      cases hs : supports with
      | true => rfl
      | false => exact absurd hw (hsh hs style m ms)
    subst hsup
    rw [hw] at hid
    have hid' : markIds (m :: ms) ≤ if a.id.isSome then 0 else 1 := hid
    have hne : markToks (m :: ms) ≠ [] := by
      intro h; have := markToks_length (m :: ms); rw [h] at this; simp at this
    have hlen : ¬ (markToks (m :: ms)).length ≤ 1 := by
      rw [markToks_length]; simp only [List.length_cons]; omega
    cases style with
    | none =>
      simp only [Written.toks, List.nil_append, if_neg hne, attrIr_marks, Option.bind_eq_bind, Option.bind_some,
        Bool.false_eq_true, if_false, if_neg hlen]
      rw [shorthandLoop_marks _ _ _ (by omega) hid']
      rfl
    | some s =>
      have hir : attrIr (word s :: markToks (m :: ms)) true =
          some (.positional (word s :: markToks (m :: ms)) true) := by
        unfold attrIr
        have : irScan true (word s :: markToks (m :: ms)).length 0 false (word s :: markToks (m :: ms))
            = (none, true) := by
          rw [irScan]
          simp only [word, isSym, reduceCtorEq, or_self, decide_false, Bool.false_eq_true, false_and, if_false]
          exact irScan_marks m ms _ _ (by omega) _
        rw [this, unquote_head rfl]
        simp
      have hhead : ∃ rest, markToks (m :: ms) = m.1.tk :: rest := ⟨_, by simp [markToks]; rfl⟩
      obtain ⟨rest, hrest⟩ := hhead
      have hsym : isSym m.1.tk.kind = true := by cases m.1 <;> rfl
      have hws : isSym (word s).kind = false := rfl
      have htake : (word s :: markToks (m :: ms)).takeWhile (!isSym ·.kind) = [word s] := by
        rw [hrest, List.takeWhile_cons, hws]; simp [List.takeWhile_cons, hsym]
      have hdrop : (word s :: markToks (m :: ms)).dropWhile (!isSym ·.kind) = markToks (m :: ms) := by
        rw [hrest, List.dropWhile_cons, hws]; simp [List.dropWhile_cons, hsym]
      have hna : nonAttr [word s] = [word s] := by simp [nonAttr, word]
      have htr : trim (markToks (m :: ms)) = markToks (m :: ms) := by
        have := toks_ends (.shorthand none m ms)
        have h2 := trim_spaced [] (markToks (m :: ms)) [] rfl rfl (by simpa [Written.toks] using this.1)
          (by simpa [Written.toks] using this.2)
        simpa using h2
      simp only [Written.toks, List.cons_append, List.nil_append, if_neg (List.cons_ne_nil _ _), hir,
        Option.bind_eq_bind, Option.bind_some, Bool.false_eq_true, if_false, Bool.and_true, if_true, htake, hdrop,
        if_neg hne, hna]
      rw [parseAttr, htr, if_neg hne, attrIr_marks]
      simp only [Option.bind_eq_bind, Option.bind_some, Bool.false_eq_true, if_false, if_neg hlen]
      exact shorthandLoop_marks _ _ _ (Nat.lt_succ_self _) hid'

theorem apply_id (w : Written) (a : Attrs) (h : w.ids = 0) : (w.apply a).id = a.id := by
  cases w with
  | shorthand style m ms =>
    have : ∀ (ms : List (Mark × List Char)) (a : Attrs), (ms.filter (·.1 = .id)).length = 0 →
        (ms.foldl applyMark a).id = a.id := by
      intro ms
      induction ms with
      | nil => intro a _; rfl
      | cons m ms ih =>
        intro a h
        obtain ⟨mk, w⟩ := m
        cases mk with
        | id => simp at h
        | role => rw [List.foldl_cons, ih _ (by simpa using h)]; rfl
        | option => rw [List.foldl_cons, ih _ (by simpa using h)]; rfl
    simp only [Written.apply]
    rw [this _ _ h]
    cases style <;> rfl
  | _ => rfl

theorem written_fold (supports : Bool) (ss : List Spaced) (a : Attrs) (hok : ∀ s ∈ ss, s.ok = true)
    (hid : (ss.map (·.attr.ids)).sum ≤ if a.id.isSome then 0 else 1)
    (hsh : supports = false → ∀ s ∈ ss, ∀ st m ms, s.attr ≠ .shorthand st m ms) :
    (ss.map Spaced.toks).foldlM (attr false supports) a = some (ss.foldl (fun a s => s.attr.apply a) a) := by
  induction ss generalizing a with
  | nil => rfl
  | cons s ss ih =>
    simp only [List.map_cons, List.sum_cons] at hid
    rw [List.map_cons, List.foldlM_cons, attr_written supports a s (hok s (by simp)) (Nat.le_trans (Nat.le_add_right _ _) hid)
      (fun h st m ms => hsh h s (by simp) st m ms)]
    simp only [Option.bind_eq_bind, Option.bind_some, List.foldl_cons]
    apply ih _ (fun x hx => hok x (by simp [hx])) _ (fun h x hx => hsh h x (by simp [hx]))
    by_cases h0 : s.attr.ids = 0
    · rw [apply_id _ _ h0]; exact Nat.le_trans (Nat.le_add_left _ _) hid
    · have : (ss.map (·.attr.ids)).sum = 0 := by split at hid <;> omega
      rw [this]; exact Nat.zero_le _

theorem okValue_mem {d : Bool} {v : List Tk} (h : okValue d v = true) {t : Tk} (ht : t ∈ v) :
    t.kind ≠ CloseBracket ∧ t.kind ≠ AttrRef := by
  simp only [okValue, Bool.and_eq_true, List.all_eq_true, decide_eq_true_eq] at h
  exact ⟨(h.1 t ht).1.2, (h.1 t ht).2⟩

theorem written_mem {w : Written} (h : w.ok = true) {t : Tk} (ht : t ∈ w.toks) :
    t.kind ≠ CloseBracket ∧ t.kind ≠ AttrRef := by
  have hw : ∀ x, (word x).kind ≠ CloseBracket ∧ (word x).kind ≠ AttrRef := fun x => by simp [word]
  have hq : ∀ d, (quote d).kind ≠ CloseBracket ∧ (quote d).kind ≠ AttrRef := fun d => by cases d <;> simp [quote]
  have hqv : ∀ d v, okValue d v = true → t ∈ quote d :: v ++ [quote d] →
      t.kind ≠ CloseBracket ∧ t.kind ≠ AttrRef := by
    intro d v hv ht
    simp only [List.cons_append, List.mem_cons, List.mem_append, List.not_mem_nil, or_false] at ht
    rcases ht with h | h | h
    · rw [h]; exact hq d
    · exact okValue_mem hv h
    · rw [h]; exact hq d
  have hkv : ∀ k d v, okValue d v = true → t ∈ word k :: ⟨EqualSigns, ['=']⟩ :: (quote d :: v ++ [quote d]) →
      t.kind ≠ CloseBracket ∧ t.kind ≠ AttrRef := by
    intro k d v hv ht
    rcases List.mem_cons.mp ht with h | h
    · rw [h]; exact hw k
    · rcases List.mem_cons.mp h with h | h
      · rw [h]; simp
      · exact hqv d v hv h
  cases w with
  | nothing => simp [Written.toks] at ht
  | word x => simp only [Written.toks, List.mem_cons, List.not_mem_nil, or_false] at ht; rw [ht]; exact hw x
  | quoted d v => exact hqv d v h ht
  | namedWord k x =>
    simp only [Written.toks, List.mem_cons, List.not_mem_nil, or_false] at ht
    rcases ht with h | h | h <;> rw [h]
    · exact hw k
    · simp
    · exact hw x
  | named k d v =>
    simp only [Written.ok, Bool.and_eq_true] at h
    exact hkv k d v h.2 ht
  | roles d x xs => exact hkv _ d _ (wordsValue_ok d x xs ⟨Whitespace, [' ']⟩ rfl (by decide) (by decide)) ht
  | options d x xs => exact hkv _ d _ (wordsValue_ok d x xs ⟨Comma, [',']⟩ rfl (by decide) (by decide)) ht
  | shorthand style m ms =>
    simp only [Written.toks, List.mem_append] at ht
    rcases ht with h | h
    · cases style with
      | none => simp at h
      | some s => simp only [List.mem_cons, List.not_mem_nil, or_false] at h; rw [h]; exact hw s
    · rcases markToks_mem h with ⟨m, h⟩ | h
      · rw [h]; cases m <;> simp [Mark.tk]
      · rw [h]; simp

theorem spaced_mem {s : Spaced} (h : s.ok = true) {t : Tk} (ht : t ∈ s.toks) :
    t.kind ≠ CloseBracket ∧ t.kind ≠ AttrRef := by
  simp only [Spaced.ok, Bool.and_eq_true, List.all_eq_true, decide_eq_true_eq] at h
  simp only [Spaced.toks, List.mem_append] at ht
  rcases ht with (ht | ht) | ht
  · rw [h.1.1 t ht]; simp
  · exact written_mem h.2 ht
  · rw [h.1.2 t ht]; simp

theorem writeList_mem (s : Spaced) (ss : List Spaced) (h : ∀ x ∈ s :: ss, x.ok = true) {t : Tk}
    (ht : t ∈ writeList s ss) : t.kind ≠ CloseBracket ∧ t.kind ≠ AttrRef := by
  induction ss generalizing s with
  | nil => exact spaced_mem (h s (by simp)) ht
  | cons s' ss ih =>
    simp only [writeList, List.mem_append, List.mem_cons] at ht
    rcases ht with ht | ht | ht
    · exact spaced_mem (h s (by simp)) ht
    · rw [ht]; simp
    · exact ih s' (fun x hx => h x (by simp [hx])) ht

theorem nonAttr_toks {s : Spaced} (h : s.ok = true) : nonAttr s.toks = s.toks := by
  unfold nonAttr
  rw [List.filter_eq_self]
  intro t ht
  simpa using (spaced_mem h ht).2

/-- the attributes of a written list -/
theorem parse_writeList (fullLine supports : Bool) (s : Spaced) (ss : List Spaced)
    (hok : ∀ x ∈ s :: ss, x.ok = true) (hne : writeList s ss ≠ [])
    (hid : ((s :: ss).map (·.attr.ids)).sum ≤ 1)
    (hsh : supports = false → ∀ x ∈ s :: ss, ∀ st m ms, x.attr ≠ .shorthand st m ms)
    (close : Tk) (hk : close.kind = CloseBracket) (rest : List Tk) (hf : fullLine = true → rest = [])
    (hl : fullLine = false → (writeList s ss).getLast?.map (·.kind) ≠ some Backslash) :
    parse fullLine false supports (writeList s ss ++ close :: rest) =
      some ((s :: ss).foldl (fun a x => x.attr.apply a) {}, rest) := by
  obtain ⟨e1, e2⟩ := writeList_split s ss hok
  have hp := pieces_split fullLine (writeList s ss) (fun t ht => (writeList_mem s ss hok ht).1) e2 close hk rest hf hl
  have hmap : ((s :: ss).map Spaced.toks).map nonAttr = (s :: ss).map Spaced.toks := by
    rw [List.map_map]
    apply List.map_congr_left
    intro x hx
    exact nonAttr_toks (hok x hx)
  rw [e1, hmap] at hp
  have hfirst : (writeList s ss ++ close :: rest).head?.map (·.kind) ≠ some CloseBracket := by
    cases hw : writeList s ss with
    | nil => exact absurd hw hne
    | cons t ts =>
      have := (writeList_mem s ss hok (t := t) (by rw [hw]; simp)).1
      simpa using this
  rw [parse_of_pieces (by simp) hfirst (by simp) hk hp, written_fold supports (s :: ss) {} hok (by simpa using hid) hsh]
  rfl

end Verif.AttrList

import Verif.Lemmas.PhraseText
/-!
Lemmas for `Props/Phrases.lean`: marks that neither open nor close a phrase are text.
-/
namespace Verif.Inlines
open Verif TokenKind

/-! ### marks in text -/

theorem closes_of {m : Mark} {z : List Char} (hz : z.head?.any isLetter = false) : ∀ {y : List Char} {e : Char}, y.getLast? = some e → isGap e = false →
    ∃ d ds, y ++ m.char :: z = d :: ds ∧ closes m d ds = true
  | [], _, h, _ => by simp at h
  | [d], e, h, he => by
    simp at h; subst h
    exact ⟨d, m.char :: z, rfl, by simp [closes, he, hz]⟩
  | d :: d' :: r, e, h, he => by
    obtain ⟨x, xs, h1, h2⟩ := closes_of hz (y := d' :: r) (by simpa [List.getLast?_cons_cons] using h) he
    refine ⟨d, d' :: r ++ m.char :: z, rfl, ?_⟩
    rw [h1, closes, h2, Bool.or_true]

theorem formats_of {m : Mark} {d : Char} {ds : List Char} (hd : d ≠ ' ') (hc : closes m d ds = true) :
    ∀ {a : List Char} {p : Option Char}, (match a.getLast? with | some c => isWordChar c = false | none => p.any isWordChar = false) →
    formats m p (a ++ m.char :: d :: ds) = true
  | [], p, h => by
    simp at h
    simp only [List.nil_append, formats, decide_true, Bool.true_and, hc, Bool.and_true, Bool.or_eq_true]
    left
    cases p with
    | none => simp [hd]
    | some c => simpa [hd] using h
  | [c], p, h => by
    simp only [List.getLast?_singleton] at h
    rw [List.cons_append, formats.eq_def]; simp only [Bool.or_eq_true]
    right
    exact formats_of hd hc (a := []) (p := some c) (by simpa using h)
  | c :: c' :: r, p, h => by
    rw [List.cons_append, formats.eq_def]; simp only [Bool.or_eq_true]
    right
    refine formats_of hd hc (a := c' :: r) ?_
    rw [List.getLast?_cons_cons] at h
    revert h
    cases hh : (c' :: r).getLast? with
    | none => simp at hh
    | some e => exact id

/-! ### closing marks in tokens -/

theorem matchSeq_one {k : TokenKind} {l : List Tok} (h : matchSeq [.kind k] l = true) : ∃ c v, l = c :: v ∧ c.kind = k := by
  cases l with
  | nil => simp [matchSeq] at h
  | cons c v => simp [matchSeq, TSpec.sat] at h; exact ⟨c, v, rfl, h⟩

theorem termFrom_true {k : TokenKind} {ctx : Ctx} {l : List Tok} : ∀ {fuel start : Nat}, termFrom [.kind k] ctx l fuel start = true →
    ∃ u x c v, l = u ++ x :: c :: v ∧ c.kind = k ∧ wsish (some x) = false ∧ isKind Word v.head? = false ∧ endsBefore ctx l (u.length + 1) = false
  | 0, _, h => by simp [termFrom] at h
  | fuel + 1, start, h => by
    rw [termFrom] at h
    split at h
    · cases h
    · cases h
    · rename_i p hi
      split at h
      · exact termFrom_true h
      · split at h
        · cases h
        · rename_i h1 h2
          split at h
          · exact termFrom_true h
          · split at h
            · cases h
            · simp only [indexOfSeqFrom, Option.map_eq_some_iff] at hi
              obtain ⟨n, hn, e⟩ := hi
              obtain ⟨g1, g2, -⟩ := indexOfSeq_some hn
              rw [List.drop_drop, show start + n = p + 1 by omega] at g1
              obtain ⟨c, v, g3, g4⟩ := matchSeq_one g1
              have hp : p < l.length := by
                have := congrArg List.length g3
                simp only [List.length_drop, List.length_cons] at this
                omega
              have e0 : l = l.take p ++ l[p] :: c :: v := by
                rw [← g3, List.getElem_cons_drop, List.take_append_drop]
              have e2 : l[p + 2]? = v.head? := by
                have : l[p + 2]? = (l.drop (p + 1))[1]? := by rw [List.getElem?_drop]
                rw [this, g3, List.getElem?_cons_succ, List.head?_eq_getElem?]
              rw [e2, List.getElem?_eq_getElem hp] at h2
              simp only [Bool.or_eq_true, not_or, Bool.not_eq_true] at h2
              refine ⟨l.take p, l[p], c, v, e0, g4, h2.2, h2.1, ?_⟩
              simpa [Nat.min_eq_left (Nat.le_of_lt hp)] using h

/-- a piece of the tokens is a line: nothing comes after it, or a line end does -/
def LineEnds (q : List Tok) : Prop := q = [] ∨ ∃ n r, q = n :: r ∧ n.kind = Newline

theorem lineAt_split (ts : List Tok) : ∃ q, ts = lineAt ts ++ q ∧ LineEnds q := by
  induction ts with
  | nil => exact ⟨[], rfl, .inl rfl⟩
  | cons t ts ih =>
    by_cases hn : t.kind = Newline
    · exact ⟨t :: ts, by rw [lineAt_newline hn]; rfl, .inr ⟨t, ts, rfl, hn⟩⟩
    · obtain ⟨q, h1, h2⟩ := ih
      exact ⟨q, by rw [lineAt_cons hn, List.cons_append, ← h1], h2⟩

theorem after_split : ∀ (ts : List Tok) {l : Line}, l ∈ after ts → ∃ p n q, ts = p ++ n :: (l.toks ++ q) ∧ n.kind = Newline ∧ LineEnds q
  | [], l, h => by simp [after] at h
  | t :: ts, l, h => by
    by_cases hn : t.kind = Newline
    · rw [after_newline hn] at h
      by_cases h0 : ts = []
      · subst h0; simp [cutLines] at h
      · rw [cutLines_eq h0] at h
        rcases List.mem_cons.1 h with rfl | h
        · obtain ⟨q, h1, h2⟩ := lineAt_split ts
          exact ⟨[], t, q, by simp only [Line.new, List.nil_append]; rw [← h1], hn, h2⟩
        · obtain ⟨p, n, q, h1, h2, h3⟩ := after_split ts h
          exact ⟨t :: p, n, q, by rw [h1]; rfl, h2, h3⟩
    · rw [after_cons hn] at h
      obtain ⟨p, n, q, h1, h2, h3⟩ := after_split ts h
      exact ⟨t :: p, n, q, by rw [h1]; rfl, h2, h3⟩

/-- where a phrase that the code starts ends -/
theorem starts_split {ctx : Ctx} {k : TokenKind} {t : Tok} {b : List Tok} {orig : Nat}
    (h : startsConstrained ctx [.kind k] t ⟨lineAt b, orig⟩ (after b) = true) :
    beforeSpan t.before = true ∧ isKind Whitespace b.head? = false ∧
    ∃ p u x c v q, b = p ++ ((u ++ x :: c :: v) ++ q) ∧ (∀ n, p.getLast? = some n → n.kind = Newline) ∧ LineEnds q ∧ c.kind = k ∧ wsish (some x) = false ∧
      isKind Word v.head? = false ∧ endsBefore ctx (u ++ x :: c :: v) (u.length + 1) = false := by
  simp only [startsConstrained, Bool.and_eq_true, Bool.not_eq_true', Bool.or_eq_true, List.any_eq_true] at h
  obtain ⟨⟨⟨-, h1⟩, h2⟩, h3⟩ := h
  refine ⟨h1, ?_, ?_⟩
  · cases b with
    | nil => rfl
    | cons t ts =>
      by_cases hn : t.kind = Newline
      · simp [isKind, hn]
      · rw [lineAt_cons hn] at h2; exact h2
  · rcases h3 with h3 | ⟨l, hl, h3⟩
    · obtain ⟨u, x, c, v, e, g1, g2, g3, g4⟩ := termFrom_true h3
      obtain ⟨q, e1, e2⟩ := lineAt_split b
      refine ⟨[], u, x, c, v, q, by rw [List.nil_append, ← e]; exact e1, by simp, e2, g1, g2, g3, by rw [← e]; exact g4⟩
    · obtain ⟨u, x, c, v, e, g1, g2, g3, g4⟩ := termFrom_true h3
      obtain ⟨p, n, q, e1, e2, e3⟩ := after_split b hl
      refine ⟨p ++ [n], u, x, c, v, q, by rw [← e, e1]; simp, by simp [e2], e3, g1, g2, g3, by rw [← e]; exact g4⟩

/-! ### tokens and their characters -/

theorem OkTok.not_letter {t : Tok} (h : OkTok t) (hk : t.kind ≠ Word) : t.lexeme.head?.any isLetter = false := by
  rcases h.shape with ⟨h1, h2, h3⟩ | ⟨c, h1, h2⟩
  · have := h.digits (h1.resolve_left hk)
    cases hl : t.lexeme with
    | nil => rfl
    | cons c cs => simp [isLetter, this c (by simp [hl])]
  · rw [h1]
    have := otherKind_cases h2
    generalize t.kind = k at this
    simp only [List.mem_cons, Prod.mk.injEq, List.not_mem_nil, or_false] at this
    rcases this with h | h | h | h | h | h | h | h | h | h <;> rw [h.1] <;> decide

theorem OkTok.not_gap {t : Tok} (h : OkTok t) (hk : wsish (some t) = false) : ∃ e, t.lexeme.getLast? = some e ∧ isGap e = false := by
  rcases h.shape with ⟨h1, h2, h3⟩ | ⟨c, h1, h2⟩
  · refine ⟨t.lexeme.getLast h2, List.getLast?_eq_some_getLast h2, ?_⟩
    have := h3 _ (List.getLast_mem h2)
    generalize t.lexeme.getLast h2 = c at this
    cases hg : isGap c with
    | false => rfl
    | true =>
      simp only [isGap, Bool.or_eq_true, decide_eq_true_eq] at hg
      rcases hg with rfl | rfl <;> revert this <;> decide
  · refine ⟨c, by simp [h1], ?_⟩
    have := otherKind_cases h2
    simp only [wsish, isKind, Bool.or_eq_false_iff, decide_eq_false_iff_not] at hk
    generalize t.kind = k at this hk
    simp only [List.mem_cons, Prod.mk.injEq, List.not_mem_nil, or_false] at this
    rcases this with h | h | h | h | h | h | h | h | h | h <;> obtain ⟨rfl, rfl⟩ := h <;> first | decide | exact absurd rfl hk.1 | exact absurd rfl hk.2

theorem OkTok.mark {t : Tok} (h : OkTok t) {m : Mark} (hk : t.kind = m.kind) : t.lexeme = [m.char] := by
  rcases h.shape with ⟨h1 | h1, _⟩ | ⟨c, h1, h2⟩
  · rw [hk] at h1; cases m <;> cases h1
  · rw [hk] at h1; cases m <;> cases h1
  · rw [h1]
    have := otherKind_cases h2
    rw [hk] at this
    cases m <;> simp [Mark.kind] at this <;> rw [this] <;> rfl

theorem flat_append' (a b : List Tok) : flat (a ++ b) = flat a ++ flat b := by simp [flat]

theorem flat_head_letter {ts : List Tok} (hok : ∀ t ∈ ts, OkTok t) (h : isKind Word ts.head? = false) : (flat ts).head?.any isLetter = false := by
  cases ts with
  | nil => rfl
  | cons t ts =>
    rw [flat_head (hok t (by simp)).nonempty]
    exact (hok t (by simp)).not_letter (by simpa [isKind] using h)

theorem beforeSpan_word {c : Char} (h : beforeSpan (some c) = true) : isWordChar c = false := by
  cases hw : isWordChar c with
  | false => rfl
  | true =>
    simp only [beforeSpan] at h
    simp only [Bool.or_eq_true, decide_eq_true_eq, List.contains_eq_mem] at h
    rcases h with ((((rfl | rfl) | rfl) | rfl) | rfl) | h
    all_goals first
      | (revert hw; decide)
      | (simp at h
         rcases h with rfl | rfl | rfl | rfl | rfl | rfl | rfl | rfl | rfl | rfl | rfl | rfl | rfl | rfl <;> revert hw <;> decide)

/-- If the code starts a phrase at the token `t`, and the mark that closes it is in `b`, then the text has a phrase. -/
theorem formats_split {m : Mark} {a b : List Tok} {t : Tok} {prev : Option Char} (hok : ∀ w ∈ a ++ t :: b, OkTok w) (hk : t.kind = m.kind) (hch : Chained prev (a ++ t :: b))
    (hb : beforeSpan t.before = true) (hw : isKind Whitespace b.head? = false) {y r : List Tok} {x c : Tok} (e : b = y ++ x :: c :: r) (hc : c.kind = m.kind)
    (hx : wsish (some x) = false) (hr : isKind Word r.head? = false) : formats m prev (flat (a ++ t :: b)) = true := by
  have hokb : ∀ t ∈ b, OkTok t := fun t ht => hok t (by simp [ht])
  have hoka : ∀ t ∈ a, OkTok t := fun t ht => hok t (by simp [ht])
  have hokx := hokb x (by simp [e])
  obtain ⟨e1, h1, h2⟩ := hokx.not_gap hx
  have hlast : (flat (y ++ [x])).getLast? = some e1 := by rw [flat_last hokx.nonempty, h1]
  have hflat : flat b = flat (y ++ [x]) ++ m.char :: flat r := by
    rw [e, show y ++ x :: c :: r = (y ++ [x]) ++ c :: r by simp, flat_append', flat_cons, (hokb c (by simp [e])).mark hc]; rfl
  obtain ⟨d, ds, h3, h4⟩ := closes_of (m := m) (flat_head_letter (fun t ht => hokb t (by simp [e, ht])) hr) hlast h2
  rw [flat_append', flat_cons, (hok t (by simp)).mark hk, hflat, h3]
  refine formats_of ?_ h4 ?_
  · rintro rfl
    rw [← hflat] at h3
    cases b with
    | nil => simp [flat] at h3
    | cons u us =>
      have hu := hokb u (by simp)
      have := flat_head (t := u) (ts := us) hu.nonempty
      rw [h3] at this
      simp only [isKind, List.head?_cons, decide_eq_false_iff_not] at hw
      rcases hu.shape with ⟨_, g1, g2⟩ | ⟨f, g1, g2⟩
      · cases hl : u.lexeme with
        | nil => exact g1 hl
        | cons f fs =>
          rw [hl] at this g2
          simp at this
          have := this ▸ g2 f (by simp)
          revert this; decide
      · rw [g1] at this
        simp at this
        subst this
        have := otherKind_cases g2
        simp at this
        exact hw this
  · have hbef : t.before = lastChar prev a := by rw [chained_append] at hch; exact hch.2.1
    by_cases ha : a = []
    · subst ha
      simp only [flat, List.flatMap_nil, List.getLast?_nil]
      simp only [lastChar] at hbef
      rw [hbef] at hb
      cases prev with
      | none => rfl
      | some c => simpa using beforeSpan_word hb
    · rw [lastChar_flat (fun t ht => (hoka t ht).nonempty) ha] at hbef
      rw [hbef] at hb
      cases hl : (flat a).getLast? with
      | none =>
        exfalso
        cases a with
        | nil => exact ha rfl
        | cons u us =>
          have := (hoka u (by simp)).nonempty
          rw [List.getLast?_eq_none_iff, flat_cons] at hl
          simp [this] at hl
      | some c => rw [hl] at hb; exact beforeSpan_word hb

/-! ### reading text with marks in it -/

theorem act_loose {env subs stop ctx acc t line ls} {m : Mark} (hcall : subs.contains .callouts = false) (hk : t.kind = m.kind)
    (hs : startsConstrained ctx [.kind m.kind] t line ls = false)
    (hn : ∀ k ∈ [Plus, DoubleQuote, SingleQuote, Whitespace], k ≠ Whitespace → isKind k line.toks.head? = false) (hm : isKind m.kind line.toks.head? = false) :
    act env subs stop ctx acc none t line ls = .next (acc.putText t.lexeme) none line := by
  have h2 : isKind Plus line.toks.head? = false := hn _ (by simp) (by simp)
  have h5 : isKind DoubleQuote line.toks.head? = false := hn _ (by simp) (by simp)
  have h6 : isKind SingleQuote line.toks.head? = false := hn _ (by simp) (by simp)
  have h3 : startsSeq [.kind Plus, .not Plus] line.toks = false := by
    cases hl : line.toks with
    | nil => simp [startsSeq, matchSeq]
    | cons u us =>
      rw [hl] at h2
      simp only [isKind, List.head?_cons, decide_eq_false_iff_not] at h2
      simp [startsSeq, matchSeq, TSpec.sat, h2]
  cases m <;> simp only [Mark.kind] at hk hs hm <;>
    simp [act, attrsCase, replaceCase, macroCase, attrRefCase, calloutCase, linkCase, emphasisCase, anchorCase, monoCase, startsUnconstrained,
      curlyCase, hashCase, charCase, breakCase, lastCase, hk, hs, hm, h2, h3, h5, h6, hcall, Acc.unused]

/-- tokens of text and marks: each is text -/
theorem act_calm {env subs stop ctx acc t line ls} (hcall : subs.contains .callouts = false) (hok : OkTok t) (hn : t.kind ≠ Newline) (hl : ∀ u ∈ line.toks, OkTok u)
    (hm : ∀ m : Mark, t.kind = m.kind → startsConstrained ctx [.kind m.kind] t line ls = false ∧ isKind m.kind line.toks.head? = false) :
    act env subs stop ctx acc none t line ls = .next (acc.putText t.lexeme) none line := by
  by_cases htk : textKind t.kind = true
  · refine act_text htk ?_ ?_ (ok_head hl (by decide))
    · intro hw; rw [hok.single (by simp [hw]) (by simp [hw])]; exact Nat.le_refl _
    · intro hw; rw [hok.single (by simp [hw]) (by simp [hw])]; exact Nat.le_refl _
  · have h1 : ∃ m : Mark, t.kind = m.kind := by
      have := hok.kinds
      generalize t.kind = k at this hn htk ⊢
      simp only [List.mem_cons, List.not_mem_nil, or_false] at this
      rcases this with rfl | rfl | rfl | rfl | rfl | rfl | rfl | rfl | rfl | rfl | rfl | rfl
      case inr.inr.inr.inl => simp at hn
      all_goals first
        | exact absurd (by decide) htk
        | exact ⟨.bold, rfl⟩
        | exact ⟨.italic, rfl⟩
        | exact ⟨.mono, rfl⟩
        | exact ⟨.highlight, rfl⟩
    obtain ⟨m, h1⟩ := h1
    refine act_loose hcall h1 (hm m h1).1 ?_ (hm m h1).2
    intro k hk hk2
    simp only [List.mem_cons, List.not_mem_nil, or_false] at hk
    rcases hk with rfl | rfl | rfl | rfl
    · exact ok_head hl (by decide)
    · exact ok_head hl (by decide)
    · exact ok_head hl (by decide)
    · exact absurd rfl hk2

theorem noDoubles_at {a r : List Char} {c d : Char} (h : noDoubles (a ++ c :: d :: r) = true) : (decide (c = d) && ".*_`#".toList.contains c) = false := by
  induction a with
  | nil => simp only [List.nil_append, noDoubles, Bool.and_eq_true, Bool.not_eq_true'] at h; exact h.1.2
  | cons x xs ih =>
    refine ih ?_
    cases xs with
    | nil => simp only [List.cons_append, List.nil_append, noDoubles, Bool.and_eq_true] at h; simpa [noDoubles] using h.2
    | cons y ys => simp only [List.cons_append, noDoubles, Bool.and_eq_true] at h; simpa using h.2

theorem noDoubles_calm : ∀ {s : List Char}, noDoubles s = true → Calm s
  | [], _ => trivial
  | [_], _ => trivial
  | a :: b :: r, h => by
    simp only [noDoubles, Bool.and_eq_true] at h
    refine ⟨?_, noDoubles_calm h.2⟩
    have h1 := h.1
    simp only [calm, Bool.and_eq_true, Bool.not_eq_true', Bool.and_eq_false_iff, decide_eq_false_iff_not] at h1 ⊢
    refine ⟨h1.1, h1.2.imp_right fun h2 => ?_⟩
    simp at h2 ⊢
    exact ⟨h2.2.1, h2.2.2.1, h2.2.2.2.1, h2.1⟩

/-- no mark comes right before the same mark -/
theorem no_double_mark {a b : List Tok} {t : Tok} (hok : ∀ u ∈ a ++ t :: b, OkTok u) (h : noDoubles (flat (a ++ t :: b)) = true) {m : Mark} (hk : t.kind = m.kind) :
    isKind m.kind b.head? = false := by
  cases b with
  | nil => rfl
  | cons u us =>
    simp only [isKind, List.head?_cons, decide_eq_false_iff_not]
    intro hu
    rw [flat_append', flat_cons, flat_cons, (hok t (by simp)).mark hk, (hok u (by simp)).mark hu] at h
    have := noDoubles_at h
    cases m <;> simp [Mark.char] at this

theorem unformatted_parts {p : Option Char} {s : List Char} (h : unformatted p s = true) :
    (∀ c ∈ s, okChar c = true) ∧ noDoubles s = true ∧ ∀ m, formats m p s = false := by
  simp only [unformatted, Bool.and_eq_true, List.all_eq_true] at h
  refine ⟨fun c hc => ?_, h.1.2, fun m => ?_⟩
  · have := h.1.1 c hc
    simp only [Bool.or_eq_true] at this
    rcases this with this | this
    · exact (plain_ok this).1
    · simp at this
      rcases this with rfl | rfl | rfl | rfl <;> decide
  · have := h.2 m (by cases m <;> simp)
    simpa using this

theorem mem_lineAt_append {b k : List Tok} {u : Tok} (h : u ∈ lineAt (b ++ k)) : u ∈ b ∨ u ∈ k := List.mem_append.1 (mem_lineAt h)

theorem lineAt_head {k : TokenKind} {ts : List Tok} (h : isKind k ts.head? = false) : isKind k (lineAt ts).head? = false := by
  cases ts with
  | nil => rfl
  | cons u us =>
    by_cases hu : u.kind = Newline
    · rw [lineAt_newline hu]; rfl
    · rw [lineAt_cons hu]; exact h

theorem flat_getLast {ts : List Tok} (hok : ∀ t ∈ ts, OkTok t) (h : (flat ts).getLast? ≠ some '\n') : isKind Newline ts.getLast? = false := by
  cases hl : ts.getLast? with
  | none => rfl
  | some t =>
    have hm := List.mem_of_getLast? hl
    have e : ts = ts.dropLast ++ [t] := by
      have h0 : ts ≠ [] := by rintro rfl; simp at hl
      rw [List.getLast?_eq_some_getLast h0] at hl
      simp at hl
      rw [← hl, List.dropLast_concat_getLast]
    rw [e, flat_last (hok t hm).nonempty] at h
    simp only [isKind, decide_eq_false_iff_not]
    intro hn
    apply h
    rcases (hok t hm).shape with ⟨h1 | h1, _⟩ | ⟨c, h1, h2⟩
    · rw [hn] at h1; cases h1
    · rw [hn] at h1; cases h1
    · have := otherKind_cases h2
      rw [hn] at this
      simp at this
      rw [h1, this]; rfl

/-- tokens of unformatted text are read as text -/
theorem run_loose {env : Env} (hst : ∀ l, env.stops l = false) {subs : Substitutions} (hcall : subs.contains .callouts = false) {ts : List Tok} {prev : Option Char} (hok : ∀ t ∈ ts, OkTok t) (hch : Chained prev ts)
    (hu : unformatted prev (flat ts) = true) (hlast : (flat ts).getLast? ≠ some '\n') (acc : Acc) (orig : Nat) (hc : cleanLast acc.nodes.getLast? = true)
    (ho : (lineAt ts).length ≤ orig) :
    ∃ acc', cleanLast acc'.nodes.getLast? = true ∧ acc'.nodes ++ leafOf acc'.text = acc.nodes ++ textNodes acc.text (flat ts) ∧
      Run env subs [] acc none .none (some ⟨lineAt ts, orig⟩) (after ts) ⟨finish acc' none, .none, []⟩ := by
  obtain ⟨h1, h2, h3⟩ := unformatted_parts hu
  obtain ⟨acc', orig', g1, g2, g3, g4⟩ := run_calm hst (subs := subs) (stop := []) (ctx := .none) rfl [] (by simp) ts hok (by
    intro a t b e hn
    refine ⟨fun acc orig => ?_, rfl⟩
    rw [List.append_nil]
    refine act_calm hcall (hok t (by simp [e])) hn (fun u hu => hok u (by simp [e, mem_lineAt hu])) fun m hm => ⟨?_, ?_⟩
    · cases hs : startsConstrained .none [.kind m.kind] t ⟨lineAt b, orig⟩ (after b) with
      | false => rfl
      | true =>
        obtain ⟨s1, s2, p, u, x, c, v, q, e1, e2, e3, s3, s4, s5, s6⟩ := starts_split hs
        have := formats_split (m := m) (a := a) (b := b) (t := t) (prev := prev) (by rw [← e]; exact hok) hm (by rw [← e]; exact hch) s1 s2 (y := p ++ u) (r := v ++ q) (x := x) (c := c)
          (by rw [e1]; simp) s3 s4 (by
            cases v with
            | nil =>
              rcases e3 with rfl | ⟨n, r, rfl, hn⟩
              · rfl
              · simp [isKind, hn]
            | cons w ws => exact s5)
        rw [← e, h3 m] at this
        cases this
    · exact lineAt_head (no_double_mark (a := a) (by rw [← e]; exact hok) (by rw [← e]; exact h2) hm))
    (fun _ => flat_getLast hok hlast) acc orig hc (by rw [List.append_nil]; exact ho)
  rw [List.append_nil] at g4
  refine ⟨acc', g1, g2, g4 _ ?_⟩
  exact Run.lineEnd (fun h => absurd rfl h) Run.finished

theorem finish_text {acc : Acc} (h : cleanLast acc.nodes.getLast? = true) : finish acc none = acc.nodes ++ leafOf acc.text := by
  have := finish_clean h
  have hcc : acc.commit.commit = acc.commit := by rw [commit_clean h]; simp [Acc.commit]
  simp only [finish, Acc.unused] at this ⊢
  rw [hcc] at this
  rw [this]

/-- marks that make no phrase are text -/
theorem parse_loose {env : Env} (hst : ∀ l, env.stops l = false) {subs : Substitutions} (hcall : subs.contains .callouts = false) {s : List Char} (hu : unformatted none s = true)
    (hlast : s.getLast? ≠ some '\n') : ∃ ctx, parse env subs (linesOf (String.ofList s)) = .ok ⟨textNodes [] s, ctx, []⟩ := by
  have hl : (String.ofList s).toList = s := String.toList_ofList
  obtain ⟨h1, h2, h3⟩ := unformatted_parts hu
  obtain ⟨g1, g2, g3⟩ := tokensOf_calm (s := String.ofList s) (by rw [hl]; exact h1) (by rw [hl]; exact noDoubles_calm h2)
  rw [hl] at g1
  refine ⟨.none, ?_⟩
  rw [linesOf_ok g2]
  by_cases h0 : tokensOf (String.ofList s) = []
  · rw [h0] at g1 ⊢
    subst g1
    exact Run.parse ⟨1, rfl⟩
  · obtain ⟨acc, h4, h5, h6⟩ := run_loose hst hcall g2 g3 (by rw [g1]; exact hu) (by rw [g1]; exact hlast) ⟨[], []⟩ _ rfl (Nat.le_refl _)
    refine Run.parse ?_
    rw [cutLines_eq h0]
    refine Run.enter (hst _) (not_comment fun t ht => g2 t (mem_lineAt ht)) ?_
    rw [finish_text h4, h5, g1] at h6
    exact h6

/-! ### a phrase that ends inside another -/

theorem calm_append_mark {m : Mark} {x y : List Char} (hx : Calm x) (hy : Calm y) (h0 : x ≠ []) (h1 : m.char ∉ x) (h2 : y.head? ≠ some m.char) :
    Calm (m.char :: (x ++ m.char :: y)) := by
  have hmy : Calm (m.char :: y) := by
    refine Calm.append (a := [m.char]) trivial hy ?_
    intro u v hu hv
    simp at hu
    subst hu
    exact (calm_mark (fun e => h2 (by rw [hv, e]))).1
  refine Calm.append (a := [m.char]) trivial (Calm.append hx hmy ?_) ?_
  · intro u v hu hv
    simp at hv
    subst hv
    exact (calm_mark (fun e => h1 (e ▸ List.mem_of_getLast? hu))).2
  · intro u v hu hv
    simp at hu
    subst hu
    cases x with
    | nil => exact absurd rfl h0
    | cons d ds =>
      simp at hv
      subst hv
      exact (calm_mark (fun e => h1 (by simp [e]))).1

theorem lineAt_all {ts : List Tok} (h : ∀ t ∈ ts, t.kind ≠ Newline) : lineAt ts = ts ∧ after ts = [] := by
  induction ts with
  | nil => exact ⟨rfl, rfl⟩
  | cons t ts ih =>
    have := ih fun u hu => h u (by simp [hu])
    rw [lineAt_cons (h t (by simp)), after_cons (h t (by simp)), this.1, this.2]
    exact ⟨rfl, rfl⟩

theorem wsish_first {ts : List Tok} (hok : ∀ t ∈ ts, OkTok t) (h : (flat ts).head?.any isGap = false) : wsish ts.head? = false := by
  cases ts with
  | nil => rfl
  | cons t ts =>
    have ht := hok t (by simp)
    rw [flat_head ht.nonempty] at h
    cases hw : wsish (some t) with
    | false => exact hw
    | true =>
      simp only [wsish, isKind, Bool.or_eq_true, decide_eq_true_eq] at hw
      obtain ⟨c, h1, h2⟩ := ht.gap hw
      rw [h1] at h
      simp [h2] at h

theorem wsish_last {ts : List Tok} (hok : ∀ t ∈ ts, OkTok t) (h : (flat ts).getLast?.any isGap = false) : wsish ts.getLast? = false := by
  cases hl : ts.getLast? with
  | none => rfl
  | some t =>
    have hm := List.mem_of_getLast? hl
    have ht := hok t hm
    have e : ts = ts.dropLast ++ [t] := by
      have h0 : ts ≠ [] := by rintro rfl; simp at hl
      rw [List.getLast?_eq_some_getLast h0] at hl
      simp at hl
      rw [← hl, List.dropLast_concat_getLast]
    rw [e, flat_last ht.nonempty] at h
    cases hw : wsish (some t) with
    | false => rfl
    | true =>
      simp only [wsish, isKind, Bool.or_eq_true, decide_eq_true_eq] at hw
      obtain ⟨c, h1, h2⟩ := ht.gap hw
      rw [h1] at h
      simp [h2] at h

theorem not_mark {ts : List Tok} (hok : ∀ t ∈ ts, OkTok t) {m : Mark} (h : m.char ∉ flat ts) : ∀ t ∈ ts, t.kind ≠ m.kind := by
  intro t ht e
  apply h
  simp only [flat, List.mem_flatMap]
  exact ⟨t, ht, by rw [(hok t ht).mark e]; simp⟩

theorem not_newline {ts : List Tok} (hok : ∀ t ∈ ts, OkTok t) (h : '\n' ∉ flat ts) : ∀ t ∈ ts, t.kind ≠ Newline := by
  intro t ht e
  apply h
  simp only [flat, List.mem_flatMap]
  refine ⟨t, ht, ?_⟩
  rcases (hok t ht).shape with ⟨h1 | h1, _⟩ | ⟨c, h1, h2⟩
  · rw [e] at h1; cases h1
  · rw [e] at h1; cases h1
  · have := otherKind_cases h2
    rw [e] at this
    simp at this
    rw [h1, this]; simp

/-- inside a phrase nothing is opened that would be closed after its end -/
theorem starts_inside {m m' : Mark} {t cm : Tok} {b1 yt : List Tok} {orig : Nat} (hb1 : ∀ u ∈ b1, u.kind ≠ m.kind) (hcm : cm.kind = m.kind) (hattr : cm.attr = false)
    (hm : m' ≠ m) (hy : ∀ u ∈ yt, u.kind ≠ Newline)
    (h : startsConstrained (.specs [.kind m.kind]) [.kind m'.kind] t ⟨lineAt (b1 ++ cm :: yt), orig⟩ (after (b1 ++ cm :: yt)) = true) :
    beforeSpan t.before = true ∧ isKind Whitespace (b1 ++ cm :: yt).head? = false ∧
    ∃ y x c r, b1 = y ++ x :: c :: r ∧ c.kind = m'.kind ∧ wsish (some x) = false ∧ isKind Word r.head? = false := by
  obtain ⟨s1, s2, p, u, x, c, v, q, e1, e2, e3, s3, s4, s5, s6⟩ := starts_split h
  refine ⟨s1, s2, ?_⟩
  have hne : c.kind ≠ cm.kind := by rw [s3, hcm]; exact fun e => hm (Mark.kind_inj e)
  have hcn : cm.kind ≠ Newline := by rw [hcm]; cases m <;> decide
  have e4 : b1 ++ cm :: yt = (p ++ (u ++ [x])) ++ c :: (v ++ q) := by rw [e1]; simp
  have inside : ∀ r, b1 = p ++ (u ++ [x]) ++ c :: r → v ++ q = r ++ cm :: yt → isKind Word r.head? = false := by
    intro r _ hr
    cases r with
    | nil => rfl
    | cons r0 rs =>
      cases v with
      | nil =>
        rcases e3 with rfl | ⟨n, q', rfl, hn⟩
        · simp at hr
        · simp at hr
          simp [isKind, ← hr.1, hn]
      | cons v0 vs =>
        simp at hr
        simpa [isKind, hr.1] using s5
  rcases List.append_eq_append_iff.1 e4 with ⟨a', g1, g2⟩ | ⟨c', g1, g2⟩
  · -- the end comes first
    cases a' with
    | nil =>
      simp at g2
      exact absurd g2.1.symm (fun e => hne (by rw [e]))
    | cons a00 a' =>
      simp at g2
      obtain ⟨rfl, g2⟩ := g2
      have same : ∀ a2 : List Tok, (∀ w ∈ a2, w.kind ≠ m.kind) → u ++ [x] = a2 ++ cm :: a' → False := by
        intro a2 ha2 g3
        have hl : u ++ x :: c :: v = a2 ++ cm :: (a' ++ c :: v) := by
          rw [show u ++ x :: c :: v = (u ++ [x]) ++ c :: v by simp, g3]; simp
        rw [hl] at s6
        have hi := indexOfSeq_one (k := m.kind) (a := a2) (b := a' ++ c :: v) (c := cm) ha2 hcm
        have hlen := congrArg List.length g3
        simp only [List.length_append, List.length_cons, List.length_nil] at hlen
        simp only [endsBefore, Ctx.specs?, hi] at s6
        have h0 : (a2 ++ cm :: (a' ++ c :: v))[a2.length]? = some cm := by simp
        rw [h0] at s6
        simp only [attrOpt, hattr, Bool.not_false, Bool.and_true, decide_eq_false_iff_not] at s6
        omega
      exfalso
      rcases List.append_eq_append_iff.1 g1 with ⟨a2, g3, g4⟩ | ⟨c2, g3, g4⟩
      · exact same a2 (fun w hw => hb1 w (by rw [g3]; simp [hw])) g4
      · cases c2 with
        | nil => exact same [] (by simp) g4.symm
        | cons z zs =>
          simp at g4
          obtain ⟨rfl, g4⟩ := g4
          have hl : p.getLast? = some ((cm :: zs).getLast (by simp)) := by
            rw [g3, List.getLast?_append, List.getLast?_eq_some_getLast (by simp)]; rfl
          have hn := e2 _ hl
          cases zs with
          | nil => exact hcn hn
          | cons w ws =>
            rw [List.getLast_cons (by simp)] at hn
            exact hy _ (by rw [g2, g4]; simp only [List.mem_append]; exact .inl (.inl (List.getLast_mem _))) hn
  · cases c' with
    | nil =>
      simp at g2
      exact absurd g2.1 (fun e => hne (by rw [e]))
    | cons c0 c' =>
      simp at g2
      obtain ⟨rfl, g2⟩ := g2
      refine ⟨p ++ u, x, c, c', by rw [g1]; simp, s3, s4, inside c' (by rw [g1]) g2⟩

theorem chained_getLast {ts : List Tok} (hok : ∀ t ∈ ts, OkTok t) (h0 : ts ≠ []) (p : Option Char) : lastChar p ts = (flat ts).getLast? :=
  lastChar_flat (fun t ht => (hok t ht).nonempty) h0 p

theorem parse_overlap {env : Env} (hst : ∀ l, env.stops l = false) {subs : Substitutions} (hf : subs.contains .inlineFormatting = true)
    (hcall : subs.contains .callouts = false) {m : Mark} {x y : List Char} (h : overlaps m x y = true) :
    ∃ ctx, parse env subs (linesOf (String.ofList (m.char :: (x ++ m.char :: y)))) =
      .ok ⟨.wrap (.span m.span none) (textNodes [] x) :: textNodes [] y, ctx, []⟩ := by
  simp only [overlaps, Bool.and_eq_true, Bool.not_eq_true', List.contains_eq_mem, decide_eq_false_iff_not, List.isEmpty_eq_false_iff] at h
  obtain ⟨⟨⟨⟨⟨⟨⟨hux, huy⟩, hxm⟩, hx0⟩, hxh⟩, hxl⟩, hyh⟩, hyn⟩ := h
  have hl : ∀ s : List Char, (String.ofList s).toList = s := fun s => String.toList_ofList
  obtain ⟨hx1, hx2, hx3⟩ := unformatted_parts hux
  obtain ⟨hy1, hy2, hy3⟩ := unformatted_parts huy
  have hmok : okChar m.char = true := by cases m <;> decide
  have hyh' : y.head? ≠ some m.char := by intro e; rw [e] at hyh; simp at hyh
  obtain ⟨g1, g2, g3⟩ := tokensOf_calm (s := String.ofList (m.char :: (x ++ m.char :: y)))
    (by
      rw [hl]
      intro c hc
      simp only [List.mem_cons, List.mem_append] at hc
      rcases hc with rfl | hc | rfl | hc
      · exact hmok
      · exact hx1 c hc
      · exact hmok
      · exact hy1 c hc)
    (by rw [hl]; exact calm_append_mark (noDoubles_calm hx2) (noDoubles_calm hy2) hx0 hxm hyh')
  rw [hl] at g1
  rw [linesOf_ok g2]
  generalize tokensOf (String.ofList (m.char :: (x ++ m.char :: y))) = ts at g1 g2 g3 ⊢
  -- the tokens
  have hmw := Mark.char_not_word m
  obtain ⟨ta, tb, rfl, e1, e2⟩ := split_toks g2 (a := [m.char]) (b := x ++ m.char :: y) g1 (by
    intro u v hu _ hw _; simp at hu; subst hu; rw [hmw] at hw; cases hw)
  obtain ⟨o, rfl, ho1, ho2⟩ := mark_token (fun t ht => g2 t (by simp [ht])) e1
  obtain ⟨inner, tc, rfl, e3, e4⟩ := split_toks (fun t ht => g2 t (by simp [ht])) (a := x) (b := m.char :: y) e2 (by
    intro u v _ hv _ hw; simp at hv; subst hv; rw [hmw] at hw; cases hw)
  obtain ⟨td, yt, rfl, e5, e6⟩ := split_toks (fun t ht => g2 t (by simp [ht])) (a := [m.char]) (b := y) e4 (by
    intro u v hu _ hw _; simp at hu; subst hu; rw [hmw] at hw; cases hw)
  obtain ⟨c, rfl, hc1, hc2⟩ := mark_token (fun t ht => g2 t (by simp [ht])) e5
  simp only [List.cons_append, List.nil_append] at g2 g3 ⊢
  have hokin : ∀ t ∈ inner, OkTok t := fun t ht => g2 t (by simp [ht])
  have hoky : ∀ t ∈ yt, OkTok t := fun t ht => g2 t (by simp [ht])
  have hokc : OkTok c := g2 c (by simp)
  have hoko : OkTok o := g2 o (by simp)
  have hokall : ∀ t ∈ inner ++ c :: yt, OkTok t := fun t ht => g2 t (by simp [ht])
  have hon : o.kind ≠ Newline := by rw [ho1]; cases m <;> decide
  have hcn : c.kind ≠ Newline := by rw [hc1]; cases m <;> decide
  have hinm := not_mark hokin (m := m) (by rw [e3]; exact hxm)
  have hynn := not_newline hoky (by rw [e6]; exact hyn)
  obtain ⟨hyl, hya⟩ := lineAt_all hynn
  have hine : inner ≠ [] := by rintro rfl; exact hx0 e3.symm
  have hfirst := wsish_first hokin (by rw [e3]; exact hxh)
  have hlast := wsish_last hokin (by rw [e3]; exact hxl)
  have hyw : isKind Word yt.head? = false ∧ isKind m.kind yt.head? = false := by
    cases yt with
    | nil => exact ⟨rfl, rfl⟩
    | cons u us =>
      have hu := hoky u (by simp)
      rw [← e6, flat_head hu.nonempty] at hyh
      simp only [isKind, List.head?_cons, decide_eq_false_iff_not]
      refine ⟨fun hw => ?_, fun hw => ?_⟩
      · rcases hu.shape with ⟨_, q1, q2⟩ | ⟨d, q1, q2⟩
        · cases hll : u.lexeme with
          | nil => exact q1 hll
          | cons d ds => rw [hll] at hyh q2; simp [q2 d (by simp)] at hyh
        · have := otherKind_cases q2
          rw [hw] at this
          simp at this
      · rw [hu.mark hw] at hyh
        simp at hyh
  -- the opening mark
  have hch1 : Chained (some m.char) (inner ++ c :: yt) := by have := g3.2; rw [ho2] at this; exact this
  have hch2 : Chained (some m.char) yt := by
    have := (chained_append.1 hch1).2.2
    rw [hc2] at this
    exact this
  have hsc := startsConstrained_line (ctx := .none) (outer := []) (.inl rfl) (by simp) (t := o) (c := c) (inner := inner) (k := yt)
    (orig := (lineAt (o :: (inner ++ c :: yt))).length) hoko.attr (by rw [g3.1]; rfl)
    (fun u hu x hx => by simp at hx; subst hx; exact hinm u hu) hc1 hine hfirst hlast hoky hyw.1 hyw.2
  generalize horig : (lineAt (o :: (inner ++ c :: yt))).length = orig at hsc
  obtain ⟨w, ws, hwe⟩ := List.exists_cons_of_ne_nil hine
  have hfw : w.kind ≠ Newline ∧ w.kind ≠ Whitespace := by
    rw [hwe] at hfirst
    simp [wsish, isKind] at hfirst
    exact ⟨hfirst.2, hfirst.1⟩
  have hact : act env subs [] .none ⟨[], []⟩ none o ⟨lineAt (inner ++ c :: yt), orig⟩ (after (inner ++ c :: yt)) = _ :=
    act_mark hf ho1 hsc (by
      intro k hk hk2
      rw [hwe]
      simp only [List.cons_append, lineAt_cons hfw.1, isKind, List.head?_cons, decide_eq_false_iff_not]
      have hu := hokin w (by simp [hwe])
      simp only [List.mem_cons, List.not_mem_nil, or_false] at hk
      rcases hk with rfl | rfl | rfl | rfl | rfl
      · exact hu.not_kind (by decide)
      · exact hfw.2
      · simp only [ne_eq, not_true_eq_false, false_or] at hk2
        subst hk2
        exact hinm w (by simp [hwe])
      · exact hu.not_kind (by decide)
      · exact hu.not_kind (by decide))
  have hlne : lineAt (inner ++ c :: yt) ≠ [] := by rw [hwe, List.cons_append, lineAt_cons hfw.1]; simp
  have hrestore : restore ⟨lineAt (inner ++ c :: yt), orig⟩ (after (inner ++ c :: yt)) =
      ⟨lineAt (inner ++ c :: yt), orig⟩ :: after (inner ++ c :: yt) := by simp [restore, hlne]
  rw [hrestore] at hact
  have horig' : (lineAt (inner ++ c :: yt)).length < orig := by
    rw [← horig, lineAt_cons hon]; simp
  -- inside
  obtain ⟨acc1, orig1, h1, h2, h3, h4⟩ := run_calm hst (subs := subs) (stop := [.kind m.kind]) (ctx := .specs [.kind m.kind]) rfl (c :: yt)
    (fun t ht => hokall t (List.mem_append_right _ ht)) inner hokin (by
      intro a t b e hn
      refine ⟨fun acc orig => ?_, ?_⟩
      · have hb1 : ∀ u ∈ b, u.kind ≠ m.kind := fun u hu => hinm u (by simp [e, hu])
        have htm : t.kind ≠ m.kind := hinm t (by simp [e])
        refine act_calm hcall (hokin t (by simp [e])) hn (fun u hu => hokall u (by
          rcases mem_lineAt_append hu with hu | hu
          · simp [e, hu]
          · exact List.mem_append_right _ hu)) fun m' hm' => ⟨?_, ?_⟩
        · have hne : m' ≠ m := by rintro rfl; exact htm hm'
          cases hs : startsConstrained (.specs [.kind m.kind]) [.kind m'.kind] t ⟨lineAt (b ++ c :: yt), orig⟩ (after (b ++ c :: yt)) with
          | false => rfl
          | true =>
            obtain ⟨s1, s2, y', x', c', r, e7, s3, s4, s5⟩ := starts_inside hb1 hc1 hokc.attr hne hynn hs
            have := formats_split (m := m') (a := a) (b := b) (t := t) (prev := some m.char) (by rw [← e]; exact hokin) hm'
              (by rw [← e]; exact (chained_append.1 hch1).1) s1 (by rw [e7] at s2 ⊢; cases y' <;> simpa using s2) e7 s3 s4 s5
            rw [← e, e3, hx3 m'] at this
            cases this
        · refine lineAt_head ?_
          have := no_double_mark (a := a) (b := b) (by rw [← e]; exact hokin) (by rw [← e, e3]; exact hx2) hm'
          cases b with
          | nil =>
            simp only [List.nil_append, List.head?_cons, isKind, decide_eq_false_iff_not, hc1]
            exact fun e => htm (by rw [hm', e])
          | cons u us => exact this
      · simp [startsSeq, matchSeq, TSpec.sat, hinm t (by simp [e])])
    (by simp) ⟨[], []⟩ orig rfl (by omega)
  rw [lineAt_cons hcn] at h3
  simp only [List.length_cons] at h3
  have hinner : Run env subs [.kind m.kind] ⟨[], []⟩ none (.specs [.kind m.kind]) none
      (⟨lineAt (inner ++ c :: yt), orig⟩ :: after (inner ++ c :: yt))
      ⟨textNodes [] x, .specs [.kind m.kind], restore ⟨lineAt yt, orig1⟩ (after yt)⟩ := by
    refine Run.enter (hst _) (not_comment fun t ht => hokall t (mem_lineAt ht)) (h4 _ ?_)
    have h6 := @Run.stop env subs [.kind m.kind] acc1 none (.specs [.kind m.kind]) ⟨lineAt (c :: yt), orig1⟩ (after (c :: yt))
      (by rw [lineAt_cons hcn]; simp [startsSeq, matchSeq, TSpec.sat, hc1])
    rw [finish_clean h1, h2, after_cons hcn, e3] at h6
    rw [after_cons hcn]
    simpa [leafOf, lineAt_cons hcn, Line.drop] using h6
  -- the rest
  obtain ⟨acc2, k1, k2, k3⟩ := run_loose hst hcall hoky hch2 (by rw [e6]; exact huy) (by
      rw [e6]
      intro e
      exact hyn (List.mem_of_getLast? e)) ⟨[.wrap (.span m.span none) (textNodes [] x)], []⟩ orig1 rfl (by omega)
  refine ⟨.none, Run.parse ?_⟩
  rw [cutLines_eq (by simp), Line.new]
  refine Run.enter (hst _) (not_comment fun t ht => g2 t (mem_lineAt ht)) ?_
  simp only [horig]
  rw [lineAt_cons hon, after_cons hon]
  refine Run.nest rfl hact hinner ?_
  have hacc : (⟨[], []⟩ : Acc).push (.wrap (.span m.span none) (textNodes [] x)) = ⟨[] ++ [.wrap (.span m.span none) (textNodes [] x)], []⟩ := by
    simp [Acc.push, Acc.commit]
  rw [hacc]
  refine run_here hst (outer := []) (.inl rfl) hoky (by omega) ?_
  rw [finish_text k1, k2, e6] at k3
  simpa using k3

end Verif.Inlines

import Verif.Lemmas.Inlines
import Verif.Spec.Inlines
/-! Lemmas about the inline parser: when it does not panic. -/
namespace Verif.Inlines
open Verif TokenKind

theorem Safe.tail {t : Tok} {ts : List Tok} (h : Safe (t :: ts)) : Safe ts := h.2.2
theorem Safe.local_ {t : Tok} {ts : List Tok} (h : Safe (t :: ts)) : Local t ts := by
  have := h.1 ts.length (Nat.le_refl _)
  rwa [List.take_length] at this

theorem Safe.drop {l : List Tok} (h : Safe l) (k : Nat) : Safe (l.drop k) := by
  induction k generalizing l with
  | zero => exact h
  | succ k ih =>
    cases l with
    | nil => exact h
    | cons t ts => exact ih h.tail

theorem Safe.suffix {a l : List Tok} (h : Safe l) (hs : a <:+ l) : Safe a := by
  obtain ⟨b, rfl⟩ := hs
  have := h.drop b.length
  rwa [List.drop_left] at this

theorem Safe.dropWhile {l : List Tok} (h : Safe l) (p : Tok → Bool) : Safe (l.dropWhile p) :=
  h.suffix (List.dropWhile_suffix p)

/-- a line may be cut where a cross reference or an anchor ends -/
theorem Safe.cut {a b : List Tok} (h : Safe (a ++ b)) (hb : goesOn b = false) : Safe a := by
  induction a with
  | nil => trivial
  | cons t ts ih =>
    obtain ⟨h1, h2, h3⟩ := h
    refine ⟨?_, ⟨?_, ?_⟩, ih h3⟩
    · intro k hk
      have := h1 k (by simp; omega)
      rwa [show List.append ts b = ts ++ b from rfl, List.take_append_of_le_length hk] at this
    · intro hk hh
      match ts, h2, hh with
      | [u], h2, hh =>
        have := h2.1 hk hh
        simp only [List.append_eq, List.cons_append, List.nil_append, List.drop_succ_cons, List.drop_zero] at this
        rw [hb] at this; cases this
      | u :: v :: ts, h2, hh => exact h2.1 hk hh
    · intro hk
      have := h2.2 hk
      match ts, this with
      | [], this => simp only [List.append_eq, List.nil_append] at this; rw [hb] at this; cases this
      | u :: ts, this => exact this

/-- tokens that start nothing -/
def Plain (t : Tok) : Prop := t.kind = Word ∨ t.kind = Discard

theorem Safe.cons_plain {t : Tok} {ts : List Tok} (hp : Plain t) (h : Safe ts) : Safe (t :: ts) := by
  refine ⟨?_, ?_, h⟩
  · intro k _
    rcases hp with hp | hp <;> constructor <;> simp [hp]
  · rcases hp with hp | hp <;> constructor <;> simp [hp]

/-- an action after which all lines can be read, and which is not a failure -/
def Act.safe : Act → Prop
  | .next _ _ l => Safe l.toks
  | .brk _ _ ls => ∀ l ∈ ls, Safe l.toks
  | .nest _ _ _ _ _ _ ls => ∀ l ∈ ls, Safe l.toks
  | .sub _ il _ _ l => Safe l.toks ∧ ∀ x, il = some x → Safe x.toks
  | .link _ _ il _ _ l => Safe l.toks ∧ Safe il.toks
  | .note _ _ _ ls => ∀ l ∈ ls, Safe l.toks
  | .panic => False
  | .unsupported => False

variable {env : Env} {subs : Substitutions} {stop : List TSpec} {ctx : Ctx} {acc : Acc} {pend : Option Pend} {t : Tok}
  {line : Line} {ls : List Line}

theorem restore_safe {l : Line} (h : Safe l.toks) (hs : ∀ l ∈ ls, Safe l.toks) : ∀ x ∈ restore l ls, Safe x.toks := by
  unfold restore
  split
  · exact hs
  · intro x hx
    cases hx with
    | head => exact h
    | tail _ hx => exact hs x hx

theorem nestAct_safe {w ctx subs} (h : Safe line.toks) (hs : ∀ l ∈ ls, Safe l.toks) :
    (nestAct acc w stop ctx subs pend line ls).safe := restore_safe (h.drop _) hs

theorem attrsCase_safe (h : Safe (t :: line.toks)) {a} (e : attrsCase subs acc t line = some a) : a.safe := by
  unfold attrsCase at e
  split at e
  · rename_i hc
    split at e
    · rename_i hn
      have := h.local_.attrs hc.1 hc.2.2
      rw [hn] at this; cases this
    · cases e; exact h.tail.drop _
  · cases e

theorem emdash_safe (h : Safe (t :: line.toks)) (ht : t.kind = Dashes) : (emdash env acc pend t line).safe := by
  unfold emdash
  dsimp only
  split
  · exact h.tail
  · split
    · exact h.tail
    · split
      · split
        · exact h.tail
        · rename_i n ts he
          split
          · rename_i hn
            exact h.local_.dashes ht n (by rw [he]; rfl) hn
          · refine Safe.cons_plain ?_ (he ▸ h.tail).tail
            simp only [Plain]
            split
            · exact .inr rfl
            · exact .inl rfl
      · exact h.tail

theorem replaceCase_safe (h : Safe (t :: line.toks)) {a} (e : replaceCase env subs acc pend t line ls = some a) :
    a.safe := by
  unfold replaceCase at e
  dsimp only at e
  split at e
  · split at e
    · cases e; exact h.tail.drop _
    · cases e; exact h.tail
  split at e
  · rename_i hc
    have := h.local_.parens hc.1
    omega
  split at e
  · cases e; exact emdash_safe h (by rename_i hc; exact hc.1)
  split at e
  · cases e; exact h.tail
  split at e
  · cases e; exact h.tail.drop _
  split at e
  · cases e; exact h.tail.drop _
  split at e
  · cases e; exact h.tail.drop _
  split at e
  · cases e; exact h.tail.drop _
  · cases e

/-- a link whose text can be read -/
theorem linkAct_safe {target : List Char} (h : Safe line.toks) (ht : linkText line.toks = true) :
    (linkAct acc pend target line).safe := by
  unfold linkText at ht
  unfold linkAct
  split at ht
  · cases ht
  · rename_i n hn
    simp only [Bool.and_eq_true, decide_eq_true_eq] at ht
    obtain ⟨⟨hb, hr⟩, hq⟩ := ht
    have hf : (line.toks.take n).filter (·.kind ≠ AttrRef) = line.toks.take n := by
      rw [List.filter_eq_self]; exact fun a ha => by simpa using List.all_eq_true.1 hr a ha
    simp only [hn]
    split
    · exact ⟨h.drop _, nofun⟩
    · rename_i hh
      simp only [hf, hq]
      have hlt := isKind_lt hb
      rw [if_neg]
      · refine ⟨h.drop _, ?_⟩
        have h2 : line.toks = line.toks.take n ++ line.toks.drop n := (List.take_append_drop ..).symm
        rw [h2] at h
        refine h.cut ?_
        rw [List.drop_eq_getElem_cons hlt]
        rw [List.getElem?_eq_getElem hlt] at hb
        simp [isKind] at hb
        simp [goesOn, hb]
      · intro he
        rw [List.take_eq_nil_iff] at he
        rcases he with rfl | he
        · rw [List.head?_eq_getElem?] at hh; exact hh hb
        · rw [he] at hlt; cases hlt

theorem inBrackets_safe (h : Safe line.toks) : Safe line.inBrackets.toks := (h.dropWhile _).drop 1

theorem uriMacroAct_safe (h : Safe (t :: line.toks)) (hk : t.kind = UriScheme) (hc : continuesMacro t line.toks = true) :
    (uriMacroAct acc pend t line).safe := by
  unfold uriMacroAct
  rw [if_pos (h.local_.scheme hk)]
  exact linkAct_safe (inBrackets_safe h.tail) (h.local_.link hk hc)

theorem macroAct_safe (h : Safe (t :: line.toks)) (hs : ∀ l ∈ ls, Safe l.toks) (hk : t.kind = MacroName)
    (hc : continuesMacro t line.toks = true) : (macroAct acc pend t line ls).safe := by
  have hm := h.local_.macros hk hc
  unfold macroAct
  split
  · exact restore_safe (inBrackets_safe h.tail) hs
  split
  · exact restore_safe (inBrackets_safe h.tail) hs
  rename_i h1 h2
  have h3 : t.lexeme = "link:".toList := by
    rcases hm.name with h | h | h
    · exact absurd h h1
    · exact absurd h h2
    · exact h
  rw [if_pos h3]
  split
  · obtain ⟨h4, h5⟩ := hm.link h3 ‹_›
    rw [if_neg (by simp [h4])]
    exact linkAct_safe (inBrackets_safe h.tail) h5
  · split
    · exact h.tail.drop _
    · rename_i hn
      rw [hn] at hc
      simp [continuesMacro, indexOfSeq] at hc

theorem macroCase_safe (h : Safe (t :: line.toks)) (hs : ∀ l ∈ ls, Safe l.toks) {a}
    (e : macroCase subs acc pend t line ls = some a) : a.safe := by
  unfold macroCase at e
  dsimp only at e
  split at e
  · rename_i hc
    cases e; exact macroAct_safe h hs hc.1 hc.2.2
  split at e
  · split at e
    · cases e; exact h.tail.drop _
    · rename_i hc _ hn
      rw [hn] at hc; cases hc.2.2.1
  split at e
  · rename_i hc
    cases e; exact uriMacroAct_safe h hc.1 hc.2.2
  · cases e

/-- where the white space is looked for there is the token -/
theorem noWhitespaceUntil_some {k : TokenKind} : ∀ {b : Bool} {l : List Tok}, noWhitespaceUntil k b l = true →
    (indexOfSeq [.kind k] l).isSome = true
  | _, [], h => by simp [noWhitespaceUntil] at h
  | true, t :: ts, h => by
    rw [noWhitespaceUntil] at h
    have := noWhitespaceUntil_some h
    rw [indexOfSeq]; split
    · rfl
    · simpa using this
  | false, t :: ts, h => by
    rw [noWhitespaceUntil] at h
    rw [indexOfSeq]
    split
    · rfl
    · rename_i hm
      rw [if_neg (by simpa [matchSeq, TSpec.sat] using hm)] at h
      split at h
      · simpa using noWhitespaceUntil_some h
      · split at h
        · cases h
        · simpa using noWhitespaceUntil_some h

theorem angleAct_safe (h : Safe (t :: line.toks)) (hu : isKind UriScheme line.toks.head? = true)
    (hn : noWhitespaceUntil GreaterThan false line.toks = true) : (angleAct subs acc pend t line).safe := by
  unfold angleAct
  have hs := noWhitespaceUntil_some hn
  cases hl : line.toks with
  | nil => rw [hl] at hu; cases hu
  | cons u ts =>
    rw [hl] at hu hs
    have hk : u.kind = UriScheme := by simpa [isKind] using hu
    have ht : Safe (u :: ts) := hl ▸ h.tail
    rw [indexOfSeq, if_neg (by simp [matchSeq, TSpec.sat, hk])] at hs
    simp only [Option.isSome_map] at hs
    dsimp only
    obtain ⟨n, hn⟩ := Option.isSome_iff_exists.1 hs
    rw [hn]
    dsimp only
    split
    · exact ht.tail.drop _
    · rw [if_pos (ht.local_.scheme hk)]
      exact ht.tail.drop _

theorem attrRefCase_safe (h : Safe (t :: line.toks)) {a} (e : attrRefCase env subs acc pend t line = some a) : a.safe := by
  unfold attrRefCase at e
  split at e
  · cases e; exact h.tail.dropWhile _
  split at e
  · rename_i hc; exact absurd hc h.local_.pass
  split at e
  · cases e; exact h.tail
  · cases e

theorem calloutCase_safe (h : Safe (t :: line.toks)) {a} (e : calloutCase env subs acc pend t line = some a) : a.safe := by
  unfold calloutCase at e
  dsimp only at e
  split at e
  · cases e; exact h.tail.drop _
  split at e
  · cases e; exact h.tail
  split at e
  · cases e; exact h.tail
  · cases e

/-- what the position of a sequence says -/
theorem indexOfSeq_some {specs : List TSpec} {l : List Tok} {n : Nat} (h : indexOfSeq specs l = some n) :
    matchSeq specs (l.drop n) = true ∧ n < l.length ∧ ∀ k, k < n → matchSeq specs (l.drop k) = false := by
  induction l generalizing n with
  | nil => cases h
  | cons t ts ih =>
    unfold indexOfSeq at h
    split at h
    · cases h; rename_i hm; exact ⟨hm, by simp, fun k hk => by omega⟩
    · rename_i hm
      cases hr : indexOfSeq specs ts with
      | none => rw [hr] at h; cases h
      | some m =>
        rw [hr] at h
        simp only [Option.map_some, Option.some.injEq] at h
        subst h
        obtain ⟨h1, h2, h3⟩ := ih hr
        refine ⟨h1, by simpa using h2, ?_⟩
        intro k hk
        cases k with
        | zero => simpa using hm
        | succ k => exact h3 k (by omega)

theorem indexOfSeq_none {specs : List TSpec} {l : List Tok} (h : indexOfSeq specs l = none) :
    ∀ k, k < l.length → matchSeq specs (l.drop k) = false := by
  induction l with
  | nil => intro k hk; simp at hk
  | cons t ts ih =>
    unfold indexOfSeq at h
    split at h
    · cases h
    · rename_i hm
      intro k hk
      cases k with
      | zero => simpa using hm
      | succ k => exact ih (by simpa using h) k (by simpa using hk)

theorem matchSeq_cons {s : TSpec} {ss : List TSpec} {l : List Tok} (h : matchSeq (s :: ss) l = true) :
    ∃ t ts, l = t :: ts ∧ s.sat t = true ∧ matchSeq ss ts = true := by
  cases l with
  | nil => cases h
  | cons t ts =>
    simp only [matchSeq, Bool.and_eq_true] at h
    exact ⟨t, ts, rfl, h.1, h.2⟩

/-- what `continues_xref_shorthand` finds -/
theorem continuesXref_shape {l : List Tok} (h : continuesXref l = true) :
    ∃ b n, l = b :: l.drop 1 ∧ b.kind = LessThan ∧ indexOfSeq [.kind GreaterThan, .kind GreaterThan] (l.drop 1) = some n ∧ 0 < n := by
  simp only [continuesXref, Bool.and_eq_true, Bool.not_eq_true', decide_eq_true_eq] at h
  obtain ⟨⟨⟨⟨⟨h1, h2⟩, h3⟩, h4⟩, h5⟩, h6⟩ := h
  match l, h1, h2 with
  | b :: u :: more, h1, h2 =>
    simp only [List.head?_cons, isKind, decide_eq_true_eq] at h1
    simp only [hasSeq] at h3
    unfold indexOfSeq at h3
    rw [if_neg (by simp [matchSeq, TSpec.sat, h1])] at h3
    cases hi : indexOfSeq [.kind GreaterThan, .kind GreaterThan] (u :: more) with
    | none => rw [hi] at h3; cases h3
    | some n =>
      refine ⟨b, n, rfl, h1, hi, ?_⟩
      cases n with
      | succ n => omega
      | zero =>
        obtain ⟨hm, _, _⟩ := indexOfSeq_some hi
        simp only [List.getElem?_cons_succ, List.getElem?_cons_zero, isKind, decide_eq_false_iff_not] at h4
        simp only [List.drop_zero, matchSeq, TSpec.sat, Bool.and_eq_true, decide_eq_true_eq] at hm
        exact absurd hm.1 h4

theorem xrefAct_safe (h : Safe line.toks) (hc : continuesXref line.toks = true) : (xrefAct acc pend line).safe := by
  obtain ⟨b, n, hb, _, hn, hpos⟩ := continuesXref_shape hc
  unfold xrefAct
  rw [hn]
  dsimp only
  obtain ⟨hm, hlt, _⟩ := indexOfSeq_some hn
  obtain ⟨g, gs, hg, hgk, _⟩ := matchSeq_cons hm
  simp only [TSpec.sat, decide_eq_true_eq] at hgk
  have hin : Safe ((line.toks.drop 1).take n) := by
    have h1 := h.drop 1
    rw [← List.take_append_drop n (line.toks.drop 1)] at h1
    exact h1.cut (by rw [hg]; simp [goesOn, hgk])
  split
  · rename_i he
    have := congrArg List.length he
    simp only [List.length_take, List.length_nil] at this
    omega
  · split
    · exact ⟨h.drop _, fun x hx => by cases hx⟩
    · rename_i more hd
      split
      · exact ⟨h.drop _, fun x hx => by cases hx⟩
      · refine ⟨h.drop _, fun x hx => ?_⟩
        cases hx
        have := hin.dropWhile (fun t : Tok => decide (t.kind ≠ Comma))
        rw [hd] at this
        exact this.tail.dropWhile _

theorem linkCase_safe (h : Safe (t :: line.toks)) {a} (e : linkCase subs acc pend t line = some a) : a.safe := by
  unfold linkCase at e
  dsimp only at e
  split at e
  · rename_i hc; cases e; exact xrefAct_safe h.tail hc.2
  split at e
  · rename_i hc
    cases e; exact angleAct_safe h hc.2.2.1 hc.2.2.2
  split at e
  · cases e; exact h.tail
  · cases e

theorem emphasisCase_safe (h : Safe (t :: line.toks)) (hs : ∀ l ∈ ls, Safe l.toks) {a}
    (e : emphasisCase subs ctx acc pend t line ls = some a) : a.safe := by
  unfold emphasisCase at e
  dsimp only at e
  repeat' split at e
  all_goals first
    | cases e; exact nestAct_safe h.tail hs
    | cases e

/-- the first closing bracket is not escaped in a line that can be read -/
theorem firstNonescaped_first {l : List Tok} (h : Safe l) : ∀ (esc : Bool), (esc = true → isKind CloseBracket l.head? = false) →
    firstNonescaped CloseBracket esc l = indexOfSeq [.kind CloseBracket] l := by
  induction l with
  | nil => intro esc _; rfl
  | cons t ts ih =>
    intro esc he
    unfold firstNonescaped indexOfSeq
    by_cases hk : t.kind = CloseBracket
    · have : esc = false := by
        cases esc with
        | false => rfl
        | true => have := he rfl; simp [isKind, hk] at this
      rw [if_pos ⟨hk, by simp [this]⟩, if_pos (by simp [matchSeq, TSpec.sat, hk])]
    · rw [if_neg (fun hh => hk hh.1), if_neg (by simp [matchSeq, TSpec.sat, hk])]
      rw [ih h.tail]
      intro hb
      exact h.local_.escaped (by simpa using hb)

theorem discardLeading_safe {l : List Tok} (h : Safe l) : Safe (discardLeading l) := by
  unfold discardLeading
  split
  · split
    · exact Safe.cons_plain (.inr rfl) h.tail
    · exact h
  · trivial

theorem dropWhile_head {α} (p : α → Bool) (l : List α) (x : α) (xs : List α) (h : l.dropWhile p = x :: xs) : p x = false := by
  induction l with
  | nil => cases h
  | cons y ys ih =>
    simp only [List.dropWhile_cons] at h
    split at h
    · exact ih h
    · cases h; rename_i hp; simpa using hp

/-- looking for one kind is skipping the others -/
theorem indexOfSeq_single {k : TokenKind} {l : List Tok} {n : Nat} (h : indexOfSeq [.kind k] l = some n) :
    l.dropWhile (fun t => decide (t.kind ≠ k)) = l.drop n := by
  induction l generalizing n with
  | nil => cases h
  | cons t ts ih =>
    unfold indexOfSeq at h
    by_cases hk : t.kind = k
    · rw [if_pos (by simp [matchSeq, TSpec.sat, hk])] at h
      cases h
      simp [hk]
    · rw [if_neg (by simp [matchSeq, TSpec.sat, hk])] at h
      cases hr : indexOfSeq [.kind k] ts with
      | none => rw [hr] at h; cases h
      | some m =>
        rw [hr] at h
        simp only [Option.map_some, Option.some.injEq] at h
        subst h
        simpa [hk] using ih hr

theorem dropWhile_dropWhile {α} (p q : α → Bool) (hpq : ∀ x, q x = true → p x = true) (l : List α) :
    (l.dropWhile q).dropWhile p = l.dropWhile p := by
  induction l with
  | nil => rfl
  | cons x xs ih =>
    by_cases hq : q x
    · simp [hq, hpq x hq, ih]
    · simp [hq]

/-- in a line that can be read, an anchor ends at the first closing bracket, and another one follows it -/
theorem continuesAnchor_shape {l : List Tok} (h : firstNonescaped CloseBracket false l = indexOfSeq [.kind CloseBracket] l) (hc : continuesAnchor l = true) :
    ∃ b u more, l = b :: u :: more ∧ b.kind = OpenBracket ∧ (u.kind = Word ∨ u.kind = Colon) ∧
      ∃ c d rest, (l.drop 1).dropWhile (fun t => decide (t.kind ≠ CloseBracket)) = c :: d :: rest ∧ c.kind = CloseBracket ∧
        d.kind = CloseBracket := by
  simp only [continuesAnchor, Bool.and_eq_true, startsSeq] at hc
  obtain ⟨⟨_, h1⟩, h2⟩ := hc
  obtain ⟨b, _, rfl, hb, h1⟩ := matchSeq_cons h1
  obtain ⟨u, more, rfl, hu, _⟩ := matchSeq_cons h1
  simp only [TSpec.sat, decide_eq_true_eq] at hb
  simp only [TSpec.sat, List.contains_eq_mem, List.mem_cons, List.not_mem_nil, or_false, decide_eq_true_eq] at hu
  refine ⟨b, u, more, rfl, hb, hu, ?_⟩
  rw [h] at h2
  cases hi : indexOfSeq [.kind CloseBracket, .kind CloseBracket] (b :: u :: more) with
  | none => rw [hi] at h2; cases h2
  | some n =>
    rw [hi] at h2
    obtain ⟨hm, hlt, _⟩ := indexOfSeq_some hi
    cases hj : indexOfSeq [.kind CloseBracket] (b :: u :: more) with
    | none =>
      have := indexOfSeq_none hj n hlt
      obtain ⟨c, ds, hd, hcs, _⟩ := matchSeq_cons hm
      rw [hd] at this
      simp [matchSeq, hcs] at this
    | some m =>
      rw [hj] at h2
      simp only [decide_eq_true_eq] at h2
      subst h2
      obtain ⟨c, _, hd, hcs, hm⟩ := matchSeq_cons hm
      obtain ⟨d, rest, rfl, hds, _⟩ := matchSeq_cons hm
      simp only [TSpec.sat, decide_eq_true_eq] at hcs hds
      have := indexOfSeq_single hj
      rw [hd] at this
      have hb' : b.kind ≠ CloseBracket := by rw [hb]; exact (by decide)
      simp only [List.dropWhile_cons, hb', ne_eq, not_false_eq_true, decide_true, if_true] at this
      refine ⟨c, d, rest, ?_, hcs, hds⟩
      simp only [List.drop_succ_cons, List.drop_zero, List.dropWhile_cons]
      exact this

theorem anchorAct_safe (h : Safe (t :: line.toks)) (ht : t.kind = OpenBracket) (hc : continuesAnchor line.toks = true) :
    (anchorAct acc pend line).safe := by
  obtain ⟨b, u, more, he, hb, hu, c, d, rest, hd, hck, hdk⟩ := continuesAnchor_shape (firstNonescaped_first h.tail false (fun x => by cases x)) hc
  have hsafe : Safe (line.toks.drop 1) := h.tail.drop 1
  have hu0 : u.lexeme ≠ [] := h.local_.anchor ht u (by rw [he]; rfl)
  rw [he] at hd hsafe
  simp only [List.drop_succ_cons, List.drop_zero] at hd hsafe
  unfold anchorAct
  dsimp only
  rw [he]
  simp only [List.drop_succ_cons, List.drop_zero]
  have huk : u.kind ≠ Comma ∧ u.kind ≠ CloseBracket := by rcases hu with hu | hu <;> rw [hu] <;> decide
  rw [if_neg (by simp [huk.1, huk.2, hu0])]
  have hpq := dropWhile_dropWhile (fun t : Tok => decide (t.kind ≠ CloseBracket))
    (fun t : Tok => !(decide (t.kind = Comma) || decide (t.kind = CloseBracket))) (by intro x hx; simp at hx; simp [hx.2]) (u :: more)
  rw [hd] at hpq
  split
  · rename_i hn
    rw [hn] at hpq; cases hpq
  · rename_i x xs hx
    have hxk := dropWhile_head _ _ _ _ hx
    rw [hx] at hpq
    have hxs : Safe (x :: xs) := hx ▸ hsafe.dropWhile _
    split
    · exact ⟨hxs.tail.drop _, fun x hx => by cases hx⟩
    · rename_i hxn
      simp only [List.dropWhile_cons, hxn, ne_eq, not_false_eq_true, decide_true, if_true] at hpq
      have hdl : (discardLeading xs).dropWhile (fun t => decide (t.kind ≠ CloseBracket)) = c :: d :: rest := by
        unfold discardLeading
        split
        · rename_i w ws
          split
          · rename_i hw
            simp only [List.dropWhile_cons, hw] at hpq
            simpa [List.dropWhile_cons] using hpq
          · exact hpq
        · exact hpq
      have hts := discardLeading_safe hxs.tail
      have hrest : Safe rest := by
        have := hts.dropWhile (fun t => decide (t.kind ≠ CloseBracket))
        rw [hdl] at this
        exact this.tail.tail
      split
      · rename_i c' d' rest' hd'
        have hdl' : (discardLeading xs).dropWhile (fun t => decide (t.kind ≠ CloseBracket)) = c' :: d' :: rest' := hd'
        rw [hdl] at hdl'
        injection hdl' with e1 e2; injection e2 with e2 e3
        subst e1 e2 e3
        split
        · rename_i hne; exact hne hdk
        · split
          · exact ⟨hrest, fun x hx => by cases hx⟩
          · refine ⟨hrest, fun x hx => ?_⟩
            cases hx
            show Safe ((discardLeading xs).takeWhile (fun t => decide (t.kind ≠ CloseBracket)))
            refine Safe.cut (b := (discardLeading xs).dropWhile (fun t => decide (t.kind ≠ CloseBracket))) ?_ ?_
            · rw [List.takeWhile_append_dropWhile]; exact hts
            · rw [hdl]; simp [goesOn, hck]
      · rename_i hno
        exact hno c d rest hdl

theorem anchorCase_safe (h : Safe (t :: line.toks)) {a} (e : anchorCase acc pend t line = some a) : a.safe := by
  unfold anchorCase at e
  split at e
  · cases e; exact h.tail
  split at e
  · rename_i hc; cases e; exact anchorAct_safe h hc.1 hc.2
  · cases e

theorem monoCase_safe (h : Safe (t :: line.toks)) (hs : ∀ l ∈ ls, Safe l.toks) {a}
    (e : monoCase subs ctx acc pend t line ls = some a) : a.safe := by
  unfold monoCase at e
  dsimp only at e
  repeat' split at e
  all_goals first
    | cases e; exact nestAct_safe h.tail hs
    | cases e

theorem curlyCase_safe (h : Safe (t :: line.toks)) (hs : ∀ l ∈ ls, Safe l.toks) {a}
    (e : curlyCase subs stop acc pend t line ls = some a) : a.safe := by
  unfold curlyCase at e
  dsimp only at e
  repeat' split at e
  all_goals first
    | cases e; exact restore_safe (h.tail.drop _) hs
    | cases e

theorem hashCase_safe (h : Safe (t :: line.toks)) (hs : ∀ l ∈ ls, Safe l.toks) {a}
    (e : hashCase subs ctx acc pend t line ls = some a) : a.safe := by
  unfold hashCase at e
  dsimp only at e
  repeat' split at e
  all_goals first
    | cases e; exact nestAct_safe h.tail hs
    | cases e

theorem charCase_safe (h : Safe (t :: line.toks)) {a} (e : charCase subs acc pend t line = some a) : a.safe := by
  unfold charCase at e
  dsimp only at e
  repeat' split at e
  all_goals first
    | cases e; exact h.tail
    | cases e

theorem breakCase_safe (h : Safe (t :: line.toks)) (hs : ∀ l ∈ ls, Safe l.toks) {a}
    (e : breakCase acc pend t line ls = some a) : a.safe := by
  unfold breakCase at e
  repeat' split at e
  · cases e; exact hs
  · rename_i hd; cases e
    have := h.tail.drop 1
    rw [hd] at this
    exact this.tail
  all_goals first
    | cases e; exact h.tail
    | cases e

theorem runs_end {l : List Tok} (h : Safe l) : ∀ t, Safe (t :: l) → t.kind = Backslash → l ≠ [] →
    l.dropWhile (fun t => decide (t.kind = Backslash)) ≠ [] := by
  induction l with
  | nil => intro t _ _ hn; exact absurd rfl hn
  | cons u us ih =>
    intro t ht hk _
    by_cases hu : u.kind = Backslash
    · have := ht.2.1.1 hk (by simp [isKind, hu])
      have hus : us ≠ [] := by rintro rfl; simp [goesOn] at this
      simp only [List.dropWhile_cons, hu, decide_true, if_true]
      exact ih h.tail u h hu hus
    · simp [hu]

theorem backslashAct_safe (h : Safe (t :: line.toks)) (ht : t.kind = Backslash) : (backslashAct subs acc pend t line ls).safe := by
  unfold backslashAct
  split
  · exact h.tail
  · rename_i n ns he
    split
    · exact h.tail
    · split
      · rename_i hp
        have hn := h.tail
        rw [he] at hn
        have := hn.local_.parens hp.1
        omega
      · dsimp only
        have hd := runs_end h.tail t h ht (by rw [he]; simp)
        split
        · rename_i hn; exact absurd hn hd
        · rename_i u rest hx
          have : Safe (u :: rest) := hx ▸ h.tail.dropWhile _
          split
          · exact this.tail
          · exact this

theorem urlAct_safe (h : Safe (t :: line.toks)) (ht : t.kind = UriScheme) : (urlAct acc pend t line).safe := by
  unfold urlAct
  split
  · rename_i he
    have := h.2.1.2 ht
    rw [List.isEmpty_iff.1 he] at this
    cases this
  · dsimp only
    split
    · exact h.tail.drop _
    · rw [if_pos (h.local_.scheme ht)]
      exact h.tail.drop _

theorem lastCase_safe (h : Safe (t :: line.toks)) : (lastCase subs ctx acc pend t line ls).safe := by
  unfold lastCase
  split
  · exact backslashAct_safe h ‹_›
  · split
    · rename_i hc; exact urlAct_safe h hc.1
    · split <;> exact h.tail

theorem act_safe (h : Safe (t :: line.toks)) (hs : ∀ l ∈ ls, Safe l.toks) :
    (act env subs stop ctx acc pend t line ls).safe :=
  act_of_cases _ (fun _ => attrsCase_safe h) (fun _ => replaceCase_safe h) (fun _ => macroCase_safe h hs)
    (fun _ => attrRefCase_safe h) (fun _ => calloutCase_safe h) (fun _ => linkCase_safe h)
    (fun _ => emphasisCase_safe h hs) (fun _ => anchorCase_safe h) (fun _ => monoCase_safe h hs)
    (fun _ => curlyCase_safe h hs) (fun _ => hashCase_safe h hs) (fun _ => charCase_safe h)
    (fun _ => breakCase_safe h hs) (fun _ => lastCase_safe h)

/-- with a budget that is not used up, lines that can be read are read -/
theorem go_safe (env : Env) : ∀ (n : Nat) (subs : Substitutions) (stop : List TSpec) (acc : Acc) (pend : Option Pend)
    (ctx : Ctx) (cur : Option Line) (ls : List Line), (∀ l, cur = some l → Safe l.toks) → (∀ l ∈ ls, Safe l.toks) →
    (go env n subs stop acc pend ctx cur ls = .error .diverged) ∨
      ∃ o, go env n subs stop acc pend ctx cur ls = .ok o ∧ ∀ l ∈ o.lines, Safe l.toks := by
  intro n
  induction n with
  | zero => intro subs stop acc pend ctx cur ls _ _; left; simp [go]
  | succ n ih =>
    intro subs stop acc pend ctx cur ls hcur hls
    match cur, ls with
    | none, [] => right; exact ⟨_, by simp only [go]; rfl, by simp⟩
    | none, l :: ls =>
      have hl : Safe l.toks := hls l (List.mem_cons_self ..)
      have hls : ∀ l ∈ ls, Safe l.toks := fun x hx => hls x (List.mem_cons_of_mem _ hx)
      simp only [go]
      split
      · right; exact ⟨_, rfl, restore_safe hl hls⟩
      · split
        · exact ih _ _ _ _ _ none ls (by simp) hls
        · exact ih _ _ _ _ _ (some l) ls (by rintro x ⟨⟩; exact hl) hls
    | some l, ls =>
      have hl := hcur l rfl
      simp only [go]
      split
      · right; exact ⟨_, rfl, restore_safe (hl.drop _) hls⟩
      · split
        · exact ih _ _ _ _ _ none ls (by simp) hls
        · rename_i t ts hts
          rw [hts] at hl
          have hf := @act_safe env subs stop ctx acc pend t ⟨ts, l.orig⟩ ls hl hls
          generalize act env subs stop ctx acc pend t ⟨ts, l.orig⟩ ls = a at hf
          match a, hf with
          | .next acc' pend' l', hf => exact ih _ _ _ _ _ (some l') ls (by rintro x ⟨⟩; exact hf) hls
          | .brk acc' pend' ls', hf => exact ih _ _ _ _ _ none ls' (by simp) hf
          | .nest w stop' ctx' subs' acc' pend' ls', hf =>
            rcases ih subs' stop' ⟨[], []⟩ none ctx' none ls' (by simp) hf with h1 | ⟨o1, h1, h2⟩
            · left; simp only [h1]
            · simp only [h1]
              exact ih _ _ _ _ _ none o1.lines (by simp) h2
          | .sub w none acc' pend' l', hf => exact ih _ _ _ _ _ (some l') ls (by rintro x ⟨⟩; exact hf.1) hls
          | .sub w (some il) acc' pend' l', hf =>
            rcases ih subs [] ⟨[], []⟩ none ctx none [il] (by simp) (by
              intro x hx
              simp only [List.mem_singleton] at hx
              exact hx ▸ hf.2 il rfl) with h1 | ⟨o1, h1, h2⟩
            · left; simp only [h1]
            · simp only [h1]
              exact ih _ _ _ _ _ (some l') ls (by rintro x ⟨⟩; exact hf.1) hls
          | .link target caret il acc' pend' l', hf =>
            rcases ih subs [] ⟨[], []⟩ none .linkMacroAttrs none [il] (by simp) (by
              intro x hx
              simp only [List.mem_singleton] at hx
              exact hx ▸ hf.2) with h1 | ⟨o1, h1, h2⟩
            · left; simp only [h1]
            · simp only [h1]
              exact ih _ _ _ _ _ (some l') ls (by rintro x ⟨⟩; exact hf.1) hls
          | .note w acc' pend' ls', hf =>
            rcases ih subs [.kind CloseBracket] ⟨[], []⟩ none ctx none ls' (by simp) hf with h1 | ⟨o1, h1, h2⟩
            · left; simp only [h1]
            · simp only [h1]
              exact ih _ _ _ _ _ none o1.lines (by simp) h2
          | .panic, hf => exact hf.elim
          | .unsupported, hf => exact hf.elim

end Verif.Inlines

import Verif.Lemmas.ListItems
import Verif.Model.Checklist
import Verif.Spec.Checklist
/-! Lemmas: check boxes. -/
namespace Verif.Checklist
open Verif Verif.Lexer Verif.Directives Verif.LineKinds TokenKind
variable {plugins : List (List UInt8)}

theorem nextToken_x {pre line post : List UInt8} {s : Step} {p : Nat} (h : Around pre (ch 'x' :: ch ']' :: line) post)
    (hs : nextToken (pre ++ (ch 'x' :: ch ']' :: line) ++ post) plugins pre.length = some (some s, p)) :
    s.kind = Word ∧ s.stop = pre.length + 1 := by
  have hb : isLetter (ch 'x') = true := by decide
  generalize hx : ch 'x' = b at *
  have h0 : (pre ++ (b :: ch ']' :: line) ++ post)[pre.length]? = some b := by simp
  have h1 : (pre ++ (b :: ch ']' :: line) ++ post)[pre.length + 1]? = some (ch ']') := by
    rw [List.append_assoc, List.getElem?_append_right (by omega)]
    simp
  unfold nextToken at hs
  simp only at hs
  split at hs
  · rename_i len c hd
    have := (delimiter_first h hd).2
    obtain ⟨_, ⟨c, hc, _, e⟩ | ⟨e, _⟩⟩ := first_delim this
    · have hbc : b ∈ List.replicate len c := by rw [← e]; simp
      rw [List.mem_replicate] at hbc
      have hall : ∀ x ∈ bs "_-*=.+/", isLetter x = false := by decide
      rw [hbc.2, hall _ hc] at hb
      cases hb
    · have := congrArg List.head? e
      simp at this
      subst this
      exact absurd hb (by decide)
  · rw [h0] at hs
    simp only [letter_table hb, Option.map_eq_some_iff] at hs
    obtain ⟨s', hs, he⟩ := hs
    injection he with he he2
    cases he
    unfold otherArm at hs
    have hsp : isSpace b = false := by
      rw [← Bool.not_eq_true, isSpace_iff]
      rintro (rfl | rfl | rfl | rfl) <;> revert hb <;> decide
    have hdg : isDigit b = false := by
      simp only [isLetter, Bool.and_eq_true, Bool.not_eq_true'] at hb
      exact hb.2
    have ne : ∀ {c}, isLetter c = false → b ≠ c := letter_ne hb
    rw [if_neg (by simp [hsp]), if_neg (ne (by decide)), if_neg (ne (by decide)), if_neg (ne (by decide)), if_neg (fun h => ne (by decide) h.1),
      if_neg (by simp [hdg]), if_neg (by rintro (h | h) <;> exact ne (by decide) h), if_neg (fun h => ne (by decide) h.1),
      if_neg (by rintro (h | h | h) <;> exact ne (by decide) h), if_neg (fun h => ne (by decide) h.1)] at hs
    unfold word at hs
    have hscan := h.scan (f := fun b => !wordBoundary true b) (by decide) (by simp [letter_word hb])
    have ht : ((b :: ch ']' :: line).takeWhile fun b => !wordBoundary true b).length = 1 := by
      have : wordBoundary true (ch ']') = true := by decide
      rw [List.takeWhile_cons, if_pos (by simp [letter_word hb]), List.takeWhile_cons, if_neg (by simp only [this]; decide)]
      rfl
    simp only [hscan, ht, h1, Option.bind_eq_bind, Option.bind_eq_some_iff] at hs
    obtain ⟨d, _, hs⟩ := hs
    rw [if_neg (by decide), if_neg (by decide)] at hs
    cases hs
    exact ⟨rfl, rfl⟩

theorem x_lexed {bol : Bool} {line : List UInt8} {toks : List Tok} (h : LexAt plugins bol (ch 'x' :: ch ']' :: line) toks) :
    ∃ t ts, toks = t :: ts ∧ t.kind = Word ∧ t.lexeme = [ch 'x'] ∧ LexAt plugins false (ch ']' :: line) ts := by
  have key : ∃ t ts, toks = t :: ts ∧ t.kind = Word ∧ t.lexeme = [ch 'x'] := by
    obtain ⟨pre, post, fuel, q, ha, hbol, h⟩ := h
    cases fuel with
    | zero => simp [lexLine] at h
    | succ fuel =>
      have hb' : (pre ++ (ch 'x' :: ch ']' :: line) ++ post)[pre.length]? = some (ch 'x') := by simp
      obtain ⟨s, hs, hg⟩ := nextToken_good (plugins := plugins) (lt_length_of_getElem? hb')
      obtain ⟨k, hk0, hk, hst, hsp, hsl, hok⟩ := first_token ha.post ha.line hs hg
      unfold lexLine at h
      rw [if_neg (by rw [hb']; decide), hs] at h
      simp only [hsl, Option.bind_eq_bind, Option.bind_some, Option.bind_eq_some_iff] at h
      obtain ⟨⟨ts, q'⟩, h1, h2⟩ := h
      cases h2
      obtain ⟨h1, h2⟩ := nextToken_x ha hs
      refine ⟨_, _, rfl, h1, ?_⟩
      obtain rfl : k = 1 := by omega
      rfl
  obtain ⟨t, ts, rfl, h1, h2⟩ := key
  obtain ⟨k, h0, hk, _, h4, h5⟩ := uncons h
  obtain rfl : k = 1 := by
    rw [h4] at h2
    have := congrArg List.length h2
    simp only [List.length_take, List.length_cons] at this hk
    simp at this
    omega
  exact ⟨t, ts, rfl, h1, h2, h5⟩

/-- what a box is in bytes -/
def ByteBox (checked : Bool) (bytes rest : List UInt8) : Prop :=
  ∃ inside, bytes = ch '[' :: inside ++ ch ']' :: rest ∧ (∃ w r, rest = w :: r ∧ isSpace w = true) ∧
    (checked = true ∧ (inside = [ch 'x'] ∨ inside = [ch '*']) ∨ checked = false ∧ inside ≠ [] ∧ ∀ x ∈ inside, isSpace x = true)

theorem consume_of {bol : Bool} {bytes rest : List UInt8} {toks : List Tok} {ck : Bool} (h : LexAt plugins bol bytes toks) (hb : ByteBox ck bytes rest) :
    ∃ left, consumeChecklistItem toks = some (ck, left) ∧ left.flatMap Tok.lexeme = rest := by
  obtain ⟨inside, rfl, ⟨w, r, rfl, hw⟩, hin⟩ := hb
  obtain ⟨t, ts, rfl, hk, _, h1⟩ := one_lexed h (K := OpenBracket) rfl (by decide) (.inr (.inr (.inl (by decide))))
  have after : ∀ {us}, LexAt plugins false (ch ']' :: w :: r) us → ∃ c s vs, us = c :: s :: vs ∧ c.kind = CloseBracket ∧ s.kind = Whitespace ∧ (s :: vs).flatMap Tok.lexeme = w :: r := by
    intro us hu
    obtain ⟨c, vs, rfl, hc, _, h2⟩ := one_lexed hu (K := CloseBracket) rfl (by decide) (.inr (.inr (.inl (by decide))))
    obtain ⟨s, vs, rfl⟩ := some_left h2 (by simp)
    refine ⟨c, s, vs, rfl, hc, ?_, LexAt.text _ (Nat.le_refl _) h2⟩
    obtain ⟨k, _, _, hf, _⟩ := uncons h2
    exact (of_space hf hw).1
  rcases hin with ⟨rfl, rfl | rfl⟩ | ⟨rfl, hne, hs⟩
  · obtain ⟨i, us, rfl, hi, hl, h2⟩ := x_lexed h1
    obtain ⟨c, s, vs, rfl, hc, hs, e⟩ := after h2
    refine ⟨s :: vs, ?_, e⟩
    have : i.lexeme = bs "x" := by rw [hl]; decide
    simp [consumeChecklistItem, kindAt, hk, hc, hs, hi, this]
  · obtain ⟨i, us, rfl, hi, hl, h2⟩ := one_lexed h1 (K := Star) rfl (by decide) (.inr (.inl rfl))
    obtain ⟨c, s, vs, rfl, hc, hs, e⟩ := after h2
    refine ⟨s :: vs, ?_, e⟩
    simp [consumeChecklistItem, kindAt, hk, hc, hs, hi]
  · obtain ⟨i, us, rfl, hi, hl, h2⟩ := space_lexed h1 hne hs (by intro x hx; cases hx; decide)
    obtain ⟨c, s, vs, rfl, hc, hs, e⟩ := after h2
    refine ⟨s :: vs, ?_, e⟩
    simp [consumeChecklistItem, kindAt, hk, hc, hs, hi]

theorem of_consume {bol : Bool} {bytes : List UInt8} {toks left : List Tok} {ck : Bool} (h : LexAt plugins bol bytes toks) (hc : consumeChecklistItem toks = some (ck, left)) :
    ∃ rest, ByteBox ck bytes rest := by
  match toks, hc with
  | [], hc => simp [consumeChecklistItem, kindAt] at hc
  | [t], hc => simp [consumeChecklistItem, kindAt] at hc
  | [t, i], hc => simp [consumeChecklistItem, kindAt] at hc
  | [t, i, c], hc => simp [consumeChecklistItem, kindAt] at hc
  | t :: i :: c :: s :: vs, hc =>
    simp only [consumeChecklistItem, kindAt, List.getElem?_cons_zero, List.getElem?_cons_succ, Option.map_some, Option.some.injEq] at hc
    split at hc
    · cases hc
    rename_i hn
    obtain ⟨ht, hcb, hs⟩ : t.kind = OpenBracket ∧ c.kind = CloseBracket ∧ s.kind = Whitespace := by
      simpa using hn
    obtain ⟨r1, rfl, h1⟩ := one_of' h (fun k hf => first_openB (ht ▸ hf))
    have close : ∀ {r2}, LexAt plugins false r2 (c :: s :: vs) → ∃ rest, r2 = ch ']' :: rest ∧ ∃ w r, rest = w :: r ∧ isSpace w = true := by
      intro r2 h2
      obtain ⟨r3, rfl, h3⟩ := one_of' h2 (fun k hf => first_closeB (hcb ▸ hf))
      obtain ⟨e1, e2, _⟩ := space_token h3 hs
      refine ⟨r3, rfl, ?_⟩
      cases r3 with
      | nil => rw [e1] at e2; exact absurd rfl e2
      | cons w r =>
        refine ⟨w, r, rfl, ?_⟩
        cases hw : isSpace w with
        | true => rfl
        | false => rw [e1, List.takeWhile_cons, hw] at e2; exact absurd rfl e2
    split at hc
    · rename_i hi
      cases hc
      obtain ⟨r2, rfl, h2⟩ := one_of' h1 (fun k hf => first_star (hi ▸ hf))
      obtain ⟨rest, rfl, hw⟩ := close h2
      exact ⟨rest, [ch '*'], rfl, hw, .inl ⟨rfl, .inr rfl⟩⟩
    split at hc
    · rename_i hi
      cases hc
      obtain ⟨e1, e2, h2⟩ := space_token h1 hi
      obtain ⟨rest, er, hw⟩ := close h2
      refine ⟨rest, r1.takeWhile isSpace, ?_, hw, .inr ⟨rfl, by rw [← e1]; exact e2, ?_⟩⟩
      · rw [← er, List.cons_append, List.takeWhile_append_dropWhile]
      · intro x hx
        have := List.all_takeWhile (p := isSpace) (l := r1)
        rw [List.all_eq_true] at this
        exact this x hx
    split at hc
    · rename_i hi
      cases hc
      obtain ⟨k, h0, hk, _, h4, h5⟩ := uncons h1
      rw [hi.2] at h4
      have hb : bs "x" = [ch 'x'] := by decide
      rw [hb] at h4
      have hk1 : k = 1 := by
        have := congrArg List.length h4
        simp only [List.length_take, List.length_cons, List.length_nil] at this
        omega
      subst hk1
      cases r1 with
      | nil => simp at hk
      | cons b r2 =>
        simp only [List.take_succ_cons, List.take_zero, List.cons.injEq, and_true] at h4
        subst h4
        obtain ⟨rest, er, hw⟩ := close h5
        simp only [List.drop_succ_cons, List.drop_zero] at er
        subst er
        exact ⟨rest, [ch 'x'], rfl, hw, .inl ⟨rfl, .inl rfl⟩⟩
    · cases hc

theorem ch_white {c : Char} (h : c ∈ whites) : c.toNat < 128 ∧ isSpace (ch c) = true := by
  simp only [whites, List.mem_cons, List.not_mem_nil, or_false] at h
  rcases h with rfl | rfl | rfl | rfl <;> decide

theorem enc_cons {c : Char} (l : List Char) (h : c.toNat < 128) : encode (c :: l) = ch c :: encode l := by
  rw [show c :: l = [c] ++ l from rfl, encode_append, enc_bs (by intro d hd; simp at hd; subst hd; exact h)]
  rfl

theorem uncode {c : Char} {text : List Char} {r : List UInt8} (hc : c.toNat < 128) (h : encode text = ch c :: r) : ∃ t, text = c :: t ∧ encode t = r := by
  cases text with
  | nil => cases h
  | cons d t =>
    obtain ⟨rfl, e⟩ := enc_head hc (show String.utf8EncodeChar d ++ encode t = ch c :: r from h)
    exact ⟨t, rfl, e⟩

theorem uncode_white {text : List Char} {b : UInt8} {r : List UInt8} (hb : isSpace b = true) (h : encode text = b :: r) : ∃ c t, c ∈ whites ∧ text = c :: t ∧ encode t = r := by
  rcases isSpace_iff.1 hb with rfl | rfl | rfl | rfl
  · obtain ⟨t, e⟩ := uncode (c := ' ') (by decide) h; exact ⟨' ', t, by decide, e⟩
  · obtain ⟨t, e⟩ := uncode (c := '\t') (by decide) h; exact ⟨'\t', t, by decide, e⟩
  · obtain ⟨t, e⟩ := uncode (c := '\x0b') (by decide) h; exact ⟨'\x0b', t, by decide, e⟩
  · obtain ⟨t, e⟩ := uncode (c := '\x0c') (by decide) h; exact ⟨'\x0c', t, by decide, e⟩

theorem uncode_whites : ∀ {bytes : List UInt8} {text : List Char} {r : List UInt8}, (∀ x ∈ bytes, isSpace x = true) → encode text = bytes ++ r →
    ∃ g t, g.length = bytes.length ∧ (∀ c ∈ g, c ∈ whites) ∧ text = g ++ t ∧ encode t = r
  | [], text, r, _, h => ⟨[], text, rfl, by simp, rfl, h⟩
  | b :: bytes, text, r, hb, h => by
    obtain ⟨c, t, hc, rfl, e⟩ := uncode_white (hb b (by simp)) h
    obtain ⟨g, t, h1, h2, rfl, h3⟩ := uncode_whites (fun x hx => hb x (by simp [hx])) e
    exact ⟨c :: g, t, by simp [h1], by intro d hd; exact (List.mem_cons.1 hd).elim (fun e => e ▸ hc) (h2 d), rfl, h3⟩

theorem box_bytes {ck : Bool} {text rest : List Char} (h : Box ck text rest) : ByteBox ck (encode text) (encode rest) := by
  have close : ∀ {w : Char} {r : List Char}, w ∈ whites → encode (']' :: w :: r) = ch ']' :: encode (w :: r) ∧ ∃ w' r', encode (w :: r) = w' :: r' ∧ isSpace w' = true := by
    intro w r hw
    exact ⟨enc_cons _ (by decide), _, _, enc_cons _ (ch_white hw).1, (ch_white hw).2⟩
  cases h with
  | x hw =>
    refine ⟨[ch 'x'], ?_, (close hw).2, .inl ⟨rfl, .inl rfl⟩⟩
    rw [enc_cons _ (by decide), enc_cons _ (by decide), (close hw).1]; rfl
  | star hw =>
    refine ⟨[ch '*'], ?_, (close hw).2, .inl ⟨rfl, .inr rfl⟩⟩
    rw [enc_cons _ (by decide), enc_cons _ (by decide), (close hw).1]; rfl
  | empty hb hw =>
    rename_i b _ _
    refine ⟨[ch b], ?_, (close hw).2, .inr ⟨rfl, by simp, by simpa using (ch_white hb).2⟩⟩
    rw [enc_cons _ (by decide), enc_cons _ (ch_white hb).1, (close hw).1]; rfl

theorem bytes_box {ck : Bool} {text : List Char} {rest : List UInt8} (h : ByteBox ck (encode text) rest) :
    (∃ rest, Box ck text rest) ∨ ∃ g r, 1 < g.length ∧ (∀ c ∈ g, c ∈ whites) ∧ text = '[' :: g ++ ']' :: r := by
  obtain ⟨inside, e, ⟨w, r, rfl, hw⟩, hin⟩ := h
  obtain ⟨t, rfl, e1⟩ := uncode (c := '[') (by decide) e
  have close : ∀ {t}, encode t = ch ']' :: w :: r → ∃ c u, c ∈ whites ∧ t = ']' :: c :: u := by
    intro t e
    obtain ⟨t, rfl, e2⟩ := uncode (c := ']') (by decide) e
    obtain ⟨c, u, hc, rfl, _⟩ := uncode_white hw e2
    exact ⟨c, u, hc, rfl⟩
  rcases hin with ⟨rfl, rfl | rfl⟩ | ⟨rfl, hne, hs⟩
  · obtain ⟨t, rfl, e2⟩ := uncode (c := 'x') (by decide) e1
    obtain ⟨c, u, hc, rfl⟩ := close e2
    exact .inl ⟨_, .x hc⟩
  · obtain ⟨t, rfl, e2⟩ := uncode (c := '*') (by decide) e1
    obtain ⟨c, u, hc, rfl⟩ := close e2
    exact .inl ⟨_, .star hc⟩
  · obtain ⟨g, t, h1, h2, rfl, e2⟩ := uncode_whites hs e1
    obtain ⟨c, u, hc, rfl⟩ := close e2
    match g, h1, h2 with
    | [], h1, _ => exact absurd (List.length_eq_zero_iff.1 h1.symm) hne
    | [b], _, h2 => exact .inl ⟨_, .empty (h2 b (by simp)) hc⟩
    | b :: b' :: g, _, h2 => exact .inr ⟨b :: b' :: g, c :: u, by simp, h2, rfl⟩

theorem item_boxed {word : Char → Bool} {line indent mark gap text : List Char} {m : Lists.Marker} {toks : List Tok} (h : ItemLine line indent mark gap text m)
    (hl : LineOf plugins toks (encode line)) :
    (Unordered m → (∀ ck rest, Box ck text rest → listItem word toks = some ⟨m, some ck, rest⟩) ∧
      ((∀ ck rest, ¬ Box ck text rest) → (∀ g r, 1 < g.length → (∀ c ∈ g, c ∈ whites) → text ≠ '[' :: g ++ ']' :: r) → listItem word toks = some ⟨m, none, text⟩)) ∧
    (¬ Unordered m → listItem word toks = some ⟨m, none, text⟩) := by
  obtain ⟨h1, h2⟩ := item_lexed (word := word) h (Verif.Lexer.LineOf.at hl) (lineText_eq hl.text)
  have ht : lineText (itemRest toks) = text := lineText_eq (LexAt.text _ (Nat.le_refl _) h2)
  have hd : m.isDescription = false := (mark_first h.marker).1
  refine ⟨fun hu => ⟨fun ck rest hb => ?_, fun hn hw => ?_⟩, fun hu => ?_⟩
  · obtain ⟨left, e1, e2⟩ := consume_of h2 (box_bytes hb)
    have := lineText_eq e2
    cases m <;> simp [Unordered] at hu <;> simp [listItem, h1, hd, e1, this]
  · have e1 : consumeChecklistItem (itemRest toks) = none := by
      cases e : consumeChecklistItem (itemRest toks) with
      | none => rfl
      | some p =>
        obtain ⟨ck, left⟩ := p
        obtain ⟨rest, hb⟩ := of_consume h2 e
        rcases bytes_box hb with ⟨rest, hb⟩ | ⟨g, r, hg, hg', e⟩
        · exact absurd hb (hn _ _)
        · exact absurd e (hw g r hg hg')
    cases m <;> simp [Unordered] at hu <;> simp [listItem, h1, hd, e1, ht]
  · cases m <;> simp [Unordered] at hu <;> simp [listItem, h1, hd, ht]

end Verif.Checklist

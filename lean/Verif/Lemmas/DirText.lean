import Verif.Spec.DirText
import Verif.Lemmas.LexerLines
import Verif.Lemmas.Utf8
import Verif.Lemmas.DirRegex
/-! Lemmas: lines of a source and their tokens. -/
namespace Verif.Directives
open Verif Verif.Lexer

/-- what is known of every token in a line -/
structure TokOk (t : Tok) : Prop where
  dir : t.kind = .Directive → ∃ d ∈ directives, t.lexeme = d ++ [58, 58]
  ne : t.lexeme ≠ []
  inner : (91 : UInt8) ∉ t.lexeme.drop 1
  bracket : t.lexeme.head? = some 91 → t.lexeme = [91]
  /-- quotes and commas are tokens -/
  marks : (34 : UInt8) ∉ t.lexeme.drop 1 ∧ (44 : UInt8) ∉ t.lexeme.drop 1

theorem eol_iff {o : Option UInt8} : eol o = true ↔ o = none ∨ o = some 10 ∨ o = some 13 := by
  simp only [eol, Bool.or_eq_true, beq_iff_eq]
  constructor
  · rintro ((h | h) | h)
    · exact .inr (.inl h)
    · exact .inr (.inr h)
    · exact .inl h
  · rintro (h | h | h)
    · exact .inr h
    · exact .inl (.inl h)
    · exact .inl (.inr h)

/-- the first token of a line -/
theorem first_token {plugins : List (List UInt8)} {pre post line : List UInt8} {b : UInt8} (hpost : eol post[0]? = true)
    (hline : ∀ x ∈ b :: line, x ≠ 10 ∧ x ≠ 13) {s : Step} {p : Nat} 
    (hs : nextToken (pre ++ (b :: line) ++ post) plugins pre.length = some (some s, p)) (hg : Good (pre ++ (b :: line) ++ post) pre.length s) :
    ∃ k, 0 < k ∧ k ≤ (b :: line).length ∧ s.start = pre.length ∧ s.stop = pre.length + k ∧
      slice (pre ++ (b :: line) ++ post) s.start s.stop = some ((b :: line).take k) ∧
      TokOk ⟨s.kind, s.start, s.stop, (b :: line).take k⟩ := by
  generalize hsrc : pre ++ (b :: line) ++ post = src at *
  have hb : src[pre.length]? = some b := by rw [← hsrc]; simp
  obtain ⟨hin, hbr⟩ := nextToken_inside hb (hline b (by simp)) hs
  have h1 := hg.start; have h2 := hg.stop; have h3 := hg.lt; have h4 := hg.le
  have hlen : src.length = pre.length + (b :: line).length + post.length := by rw [← hsrc]; simp; omega
  have hend : s.stop ≤ pre.length + (b :: line).length := by
    false_or_by_contra
    rename_i hgt
    have hidx : src[pre.length + (b :: line).length]? = post[0]? := by
      rw [← hsrc, List.getElem?_append_right (by simp)]
      congr 1; simp
    obtain ⟨x, hx, hn⟩ := hin.clean (pre.length + (b :: line).length) (by simp) (by omega)
    rw [hidx] at hx
    rw [hx] at hpost
    rcases eol_iff.1 hpost with h | h | h
    · cases h
    · cases h; exact hn.1 rfl
    · cases h; exact hn.2.1 rfl
  have htake : ∀ k, k ≤ (b :: line).length → (src.drop pre.length).take k = (b :: line).take k := by
    intro k hk
    rw [← hsrc, List.append_assoc, List.drop_left, List.take_append_of_le_length hk]
  refine ⟨s.stop - pre.length, by omega, by omega, h1, by omega, ?_, ?_⟩
  · rw [slice_some (by omega) (by omega), h1, htake _ (by omega)]
  · have inside : ∀ y ∈ ((b :: line).take (s.stop - pre.length)).drop 1, y ≠ 91 ∧ y ≠ 34 ∧ y ≠ 44 := by
      rw [← htake _ (by omega)]
      intro y hm
      obtain ⟨i, hi⟩ := List.mem_iff_getElem?.1 hm
      rw [List.getElem?_drop] at hi
      by_cases hlt : 1 + i < s.stop - pre.length
      · rw [List.getElem?_take_of_lt hlt, List.getElem?_drop] at hi
        obtain ⟨x, hx, hn⟩ := hin.clean (pre.length + (1 + i)) (by omega) (by omega)
        rw [hx] at hi
        cases hi
        exact hn.2.2
      · rw [List.getElem?_eq_none (by rw [List.length_take]; omega)] at hi
        cases hi
    refine ⟨?_, ?_, ?_, ?_, fun hm => (inside _ hm).2.1 rfl, fun hm => (inside _ hm).2.2 rfl⟩
    · intro hk
      obtain ⟨d, hd, he⟩ := hin.dir hk
      exact ⟨d, hd, by rw [← htake _ (by omega)]; exact he⟩
    · simp only
      rw [show s.stop - pre.length = (s.stop - pre.length - 1) + 1 by omega]
      simp
    · exact fun hm => (inside _ hm).1 rfl
    · simp only
      intro hh
      rw [show s.stop - pre.length = (s.stop - pre.length - 1) + 1 by omega] at hh ⊢
      simp only [List.take_succ_cons, List.head?_cons, Option.some.injEq] at hh
      subst hh
      have := hbr rfl
      rw [show s.stop - pre.length - 1 = 0 by omega]
      rfl

theorem lexLine_spec {plugins : List (List UInt8)} {post : List UInt8} (hpost : eol post[0]? = true) :
    ∀ (fuel : Nat) (pre line : List UInt8), (∀ x ∈ line, x ≠ 10 ∧ x ≠ 13) → line.length < fuel →
    ∃ toks, lexLine (pre ++ line ++ post) plugins fuel pre.length = some (toks, pre.length + line.length) ∧
      toks.flatMap Tok.lexeme = line ∧ ∀ t ∈ toks, TokOk t := by
  intro fuel
  induction fuel with
  | zero => intro pre line _ h; omega
  | succ fuel ih =>
    intro pre line hline hf
    unfold lexLine
    cases line with
    | nil =>
      have : (pre ++ [] ++ post)[pre.length]? = post[0]? := by
        rw [List.append_nil, List.getElem?_append_right (Nat.le_refl _), Nat.sub_self]
      rw [this, if_pos hpost]
      exact ⟨[], rfl, rfl, by simp⟩
    | cons b line =>
      have hb : (pre ++ (b :: line) ++ post)[pre.length]? = some b := by simp
      have hne : eol (pre ++ (b :: line) ++ post)[pre.length]? ≠ true := by
        rw [hb]
        intro h
        have := hline b (by simp)
        rcases eol_iff.1 h with h | h | h
        · cases h
        · cases h; exact this.1 rfl
        · cases h; exact this.2 rfl
      rw [if_neg hne]
      obtain ⟨s, hs, hg⟩ := nextToken_good (plugins := plugins) (lt_length_of_getElem? hb)
      obtain ⟨k, hk0, hk, hst, hsp, hsl, hok⟩ := first_token hpost hline hs hg
      obtain ⟨toks, e1, e2, e3⟩ := ih (pre ++ (b :: line).take k) ((b :: line).drop k)
        (fun x hx => hline x (List.mem_of_mem_drop hx)) (by simp at hf ⊢; omega)
      rw [show pre ++ (b :: line).take k ++ (b :: line).drop k = pre ++ (b :: line) by rw [List.append_assoc, List.take_append_drop]] at e1
      have hl : (pre ++ (b :: line).take k).length = s.pos := by
        have := hg.stop
        rw [List.length_append, List.length_take]; omega
      rw [hl] at e1
      simp only [hs, hsl, Option.bind_eq_bind, Option.bind_some, e1]
      refine ⟨_, by
        congr 2
        have := hg.stop
        rw [List.length_drop]; omega, ?_, ?_⟩
      · simp only [List.flatMap_cons, e2, List.take_append_drop]
      · intro t ht
        rcases List.mem_cons.1 ht with rfl | ht
        · exact hok
        · exact e3 t ht

/-- two lists of the same length whose elements are related -/
inductive Pairs {α β : Type} (R : α → β → Prop) : List α → List β → Prop where
  | nil : Pairs R [] []
  | cons {a b as bs} : R a b → Pairs R as bs → Pairs R (a :: as) (b :: bs)

theorem Pairs.imp {α β : Type} {R S : α → β → Prop} {as : List α} {bs : List β} (h : Pairs R as bs) (hi : ∀ a, ∀ b ∈ bs, R a b → S a b) : Pairs S as bs := by
  induction h with
  | nil => exact .nil
  | cons h1 _ ih => exact .cons (hi _ _ (by simp) h1) (ih fun a b hb => hi a b (by simp [hb]))

/-- the tokens are those of the line, somewhere in a source -/
structure LineOf (plugins : List (List UInt8)) (toks : List Tok) (line : List UInt8) : Prop where
  lexed : ∃ pre post q, (pre = [] ∨ pre.getLast? = some 10) ∧ post ≠ [] ∧ eol post[0]? = true ∧ lexLine (pre ++ line ++ post) plugins ((pre ++ line ++ post).length + 1) pre.length = some (toks, q)
  clean : ∀ x ∈ line, x ≠ 10 ∧ x ≠ 13
  text : toks.flatMap Tok.lexeme = line
  ok : ∀ t ∈ toks, TokOk t

theorem lexLines_spec {plugins : List (List UInt8)} {nl : List UInt8} (hnl : nl = [10] ∨ nl = [13, 10]) :
    ∀ (lines : List (List UInt8)) (fuel : Nat) (pre : List UInt8), (pre = [] ∨ pre.getLast? = some 10) → (∀ l ∈ lines, ∀ x ∈ l, x ≠ 10 ∧ x ≠ 13) → lines.length < fuel →
    ∃ tokss, lexLines (pre ++ lines.flatMap (· ++ nl)) plugins fuel pre.length = some tokss ∧ Pairs (LineOf plugins) tokss lines := by
  intro lines
  induction lines with
  | nil =>
    intro fuel pre _ _ hf
    obtain ⟨fuel, rfl⟩ : ∃ n, fuel = n + 1 := ⟨fuel - 1, by simp at hf; omega⟩
    refine ⟨[], ?_, .nil⟩
    unfold lexLines
    rw [if_pos (by simp)]
  | cons l ls ih =>
    intro fuel pre hpre hl hf
    obtain ⟨fuel, rfl⟩ : ∃ n, fuel = n + 1 := ⟨fuel - 1, by simp at hf; omega⟩
    obtain ⟨tokss, h1, h2⟩ := ih fuel (pre ++ l ++ nl) (.inr (by rcases hnl with rfl | rfl <;> simp)) (fun l hl' => hl l (by simp [hl'])) (by simp at hf; omega)
    have hsrc : pre ++ (l :: ls).flatMap (· ++ nl) = pre ++ l ++ (nl ++ ls.flatMap (· ++ nl)) := by simp
    rw [hsrc]
    have hpost : eol (nl ++ ls.flatMap (· ++ nl))[0]? = true := by
      rcases hnl with rfl | rfl <;> simp [eol]
    have hpne : nl ++ ls.flatMap (· ++ nl) ≠ [] := by rcases hnl with rfl | rfl <;> simp
    obtain ⟨toks, e1, e2, e3⟩ := lexLine_spec (plugins := plugins) hpost ((pre ++ l ++ (nl ++ ls.flatMap (· ++ nl))).length + 1) pre l (hl l (by simp)) (by simp; omega)
    have hskip : skipNewline (pre ++ l ++ (nl ++ ls.flatMap (· ++ nl))) (pre.length + l.length) = (pre ++ l ++ nl).length := by
      have hat : ∀ i, (pre ++ l ++ (nl ++ ls.flatMap (· ++ nl)))[pre.length + l.length + i]? = (nl ++ ls.flatMap (· ++ nl))[i]? := by
        intro i
        rw [List.getElem?_append_right (by simp)]
        congr 1; simp
      have h0 := hat 0
      have h1 := hat 1
      unfold skipNewline
      simp only
      rw [Nat.add_zero] at h0
      rw [h0]
      rcases hnl with rfl | rfl
      · simp only [List.cons_append, List.nil_append, List.getElem?_cons_zero] at h0 ⊢
        simp; omega
      · simp only [List.cons_append, List.nil_append, List.getElem?_cons_zero, List.getElem?_cons_succ] at h1 ⊢
        simp only [if_true]
        rw [h1, if_pos rfl]
        simp; omega
    refine ⟨toks :: tokss, ?_, .cons ⟨⟨pre, _, _, hpre, hpne, hpost, e1⟩, hl l (by simp), e2, e3⟩ h2⟩
    unfold lexLines
    rw [if_neg, e1]
    · simp only [Option.bind_eq_bind, Option.bind_some, hskip]
      rw [show pre ++ l ++ (nl ++ ls.flatMap (· ++ nl)) = pre ++ l ++ nl ++ ls.flatMap (· ++ nl) by simp, h1]
      rfl
    · rw [List.getElem?_eq_none_iff]
      have := List.length_pos_iff.2 hpne
      rw [List.length_append, List.length_append]; omega

/-! ### texts -/

theorem lineText_eq {toks : List Tok} {cs : List Char} (h : toks.flatMap Tok.lexeme = encode cs) : lineText toks = cs := by
  unfold lineText
  rw [h, encode]
  have : (cs.flatMap String.utf8EncodeChar).toByteArray.utf8Decode? = some cs.toArray := List.utf8Decode?_utf8Encode
  rw [this]

/-- the encoding of an ASCII character -/
theorem enc_ascii {c : Char} (h : c.toNat < 128) : String.utf8EncodeChar c = [ch c] := by
  unfold String.utf8EncodeChar
  have h' : c.val.toNat ≤ 0x7f := by
    have : c.val.toNat = c.toNat := rfl
    omega
  simp only [if_pos h']
  rfl

theorem enc_bs {s : List Char} (h : ∀ c ∈ s, c.toNat < 128) : encode s = s.map ch := by
  induction s with
  | nil => rfl
  | cons c s ih =>
    rw [encode, List.flatMap_cons, enc_ascii (h c (by simp))]
    have := ih fun c hc => h c (by simp [hc])
    rw [encode] at this
    rw [this]; rfl

theorem ch_inj {c d : Char} (hc : c.toNat < 128) (hd : d.toNat < 128) (h : ch c = ch d) : c = d := by
  have : (ch c).toNat = (ch d).toNat := by rw [h]
  simp only [ch, UInt8.toNat_ofNat'] at this
  have e : c.toNat = d.toNat := by omega
  exact Char.toNat_inj.1 e

/-- a character whose encoding starts with an ASCII byte -/
theorem enc_head {c d : Char} {l r : List UInt8} (hd : d.toNat < 128) (h : String.utf8EncodeChar c ++ l = ch d :: r) : c = d ∧ l = r := by
  obtain ⟨b0, conts, he, hc, hs⟩ := enc_shape c
  rw [he] at h
  simp only [List.cons_append, List.cons.injEq] at h
  obtain ⟨rfl, h⟩ := h
  have hlt : ch d < 128 := by
    rw [UInt8.lt_iff_toNat_lt]
    simp only [ch, UInt8.toNat_ofNat']
    show d.toNat % 256 < 128
    omega
  have hcn : c.toNat < 128 := by
    false_or_by_contra
    rename_i hge
    have : 128 ≤ ch d := by
      have hh : (String.utf8EncodeChar c).head? = some (ch d) := by rw [he]; rfl
      unfold String.utf8EncodeChar at hh
      have h' : ¬ c.val.toNat ≤ 0x7f := by
        have : c.val.toNat = c.toNat := rfl
        omega
      simp only [if_neg h'] at hh
      split at hh
      · simp only [List.head?_cons, Option.some.injEq] at hh
        rw [← hh, UInt8.le_iff_toNat_le, UInt8.toNat_ofNat']
        show 128 ≤ _ % 256; omega
      · split at hh
        · simp only [List.head?_cons, Option.some.injEq] at hh
          rw [← hh, UInt8.le_iff_toNat_le, UInt8.toNat_ofNat']
          show 128 ≤ _ % 256; omega
        · simp only [List.head?_cons, Option.some.injEq] at hh
          rw [← hh, UInt8.le_iff_toNat_le, UInt8.toNat_ofNat']
          show 128 ≤ _ % 256; omega
    exact ge_not_lt this hlt
  rw [enc_ascii hcn] at he
  simp only [List.cons.injEq] at he
  obtain ⟨h1, rfl⟩ := he
  exact ⟨ch_inj hcn hd h1, by simpa using h⟩

theorem enc_prefix {s : List Char} (hs : ∀ c ∈ s, c.toNat < 128) : ∀ {cs : List Char} {r : List UInt8}, encode cs = s.map ch ++ r → s <+: cs := by
  induction s with
  | nil => intro cs r _; simp
  | cons d s ih =>
    intro cs r h
    cases cs with
    | nil => simp [encode] at h
    | cons c cs =>
      rw [encode, List.flatMap_cons, List.map_cons, List.cons_append] at h
      obtain ⟨rfl, h'⟩ := enc_head (hs d (by simp)) h
      have := ih (fun c hc => hs c (by simp [hc])) (cs := cs) (r := r) h'
      simpa using this

theorem enc_infix {s : List Char} (hs : ∀ c ∈ s, c.toNat < 128) (hne : s ≠ []) : ∀ {cs : List Char}, s.map ch <:+: encode cs → s <:+: cs := by
  intro cs
  induction cs with
  | nil =>
    intro h
    have : s.map ch = [] := by simpa [encode] using h
    exact absurd (by simpa using this) hne
  | cons c cs ih =>
    rintro ⟨p, r, h⟩
    cases p with
    | nil =>
      have := enc_prefix hs (cs := c :: cs) (r := r) (by simpa using h.symm)
      exact this.isInfix
    | cons b p =>
      obtain ⟨b0, conts, he, hc, _⟩ := enc_shape c
      rw [encode, List.flatMap_cons, he] at h
      simp only [List.cons_append, List.cons.injEq] at h
      have h2 : p ++ (s.map ch ++ r) = conts ++ encode cs := by simpa [encode] using h.2
      rcases List.append_eq_append_iff.1 h2 with ⟨a', e1, e2⟩ | ⟨c', e1, e2⟩
      · -- the ASCII bytes start within the bytes of this character
        cases a' with
        | nil =>
          simp only [List.nil_append] at e2
          exact (ih ⟨[], r, by rw [← e2]; simp⟩).trans (List.suffix_cons _ _).isInfix
        | cons x a' =>
          cases s with
          | nil => exact absurd rfl hne
          | cons d s =>
            simp only [List.map_cons, List.cons_append, List.cons.injEq] at e2
            have hx := hc x (by rw [e1]; simp)
            rw [← e2.1] at hx
            exfalso
            refine ge_not_lt hx ?_
            rw [UInt8.lt_iff_toNat_lt]
            simp only [ch, UInt8.toNat_ofNat']
            have := hs d (by simp)
            show d.toNat % 256 < 128
            omega
      · exact (ih ⟨c', r, by rw [e2]; simp⟩).trans (List.suffix_cons _ _).isInfix

theorem lexeme_infix {t : Tok} {toks : List Tok} (h : t ∈ toks) : t.lexeme <:+: toks.flatMap Tok.lexeme := by
  obtain ⟨a, b, rfl⟩ := List.append_of_mem h
  exact ⟨a.flatMap Tok.lexeme, b.flatMap Tok.lexeme, by simp⟩

/-- in a text without directives no token is one -/
theorem no_dir {toks : List Tok} {cs : List Char} (htext : toks.flatMap Tok.lexeme = encode cs) (hok : ∀ t ∈ toks, TokOk t) (h : NoDirective cs) :
    ∀ t ∈ toks, t.kind ≠ .Directive := by
  intro t ht hk
  obtain ⟨d, hd, he⟩ := (hok t ht).dir hk
  have hin := lexeme_infix ht
  rw [he, htext] at hin
  have key : ∀ d ∈ directives, ∃ s ∈ ["include::", "ifdef::", "ifndef::", "endif::", "ifeval::", "asciidorkinclude::"],
      d ++ [58, 58] = s.toList.map ch ∧ (∀ c ∈ s.toList, c.toNat < 128) ∧ s.toList ≠ [] := by decide
  obtain ⟨s, hs, e, h1, h2⟩ := key d hd
  rw [e] at hin
  exact h s hs (enc_infix h1 h2 hin)

/-! ### the first token of a directive -/

theorem nextToken_word {src : List UInt8} {plugins : List (List UInt8)} {pos : Nat} {x : UInt8} (hb : src[pos]? = some x) (hx : x ∈ [ch 'i', ch 'e', ch 'a']) :
    nextToken src plugins pos = (word src plugins (pos + 1)).map fun s => (some s, s.pos) := by
  have hd : atDelimiterLine src pos = none := by
    simp only [List.mem_cons, List.not_mem_nil, or_false] at hx
    rcases hx with rfl | rfl | rfl <;> simp [atDelimiterLine, hb]
  have hl : simpleTable.lookup x = none := by
    simp only [List.mem_cons, List.not_mem_nil, or_false] at hx
    rcases hx with rfl | rfl | rfl <;> rfl
  unfold nextToken
  rw [hd]
  simp only [hb, hl]
  congr 1
  simp only [List.mem_cons, List.not_mem_nil, or_false] at hx
  rcases hx with rfl | rfl | rfl <;> simp [otherArm, isSpace, isDigit, ch]

theorem word_directive {src : List UInt8} {plugins : List (List UInt8)} {pos : Nat} {d rest : List UInt8} {b : UInt8} (hd : d ∈ directives)
    (hsrc : src.drop pos = d ++ 58 :: 58 :: b :: rest) (hb : isWs b = false) (hr : 2 ≤ rest.length) :
    word src plugins (pos + 1) = some ⟨.Directive, pos, pos + d.length + 2, pos + d.length + 2⟩ := by
  have key : ∀ d ∈ directives, d ≠ [] ∧ ∀ x ∈ d, (!wordBoundary true x) = true := by decide
  obtain ⟨hne, hw⟩ := key d hd
  have hlen : src.length = pos + (d.length + 3 + rest.length) := by
    have := congrArg List.length hsrc
    have hp := List.length_pos_iff.2 hne
    simp only [List.length_drop, List.length_append, List.length_cons] at this
    omega
  have hat : ∀ i, src[pos + i]? = (d ++ 58 :: 58 :: b :: rest)[i]? := by
    intro i; rw [← hsrc, List.getElem?_drop]
  have hscan : scan (fun b => !wordBoundary true b) src (pos + 1) = pos + d.length := by
    unfold scan
    have : src.drop (pos + 1) = d.drop 1 ++ 58 :: 58 :: b :: rest := by
      rw [← List.drop_drop, hsrc, List.drop_append_of_le_length (List.length_pos_iff.2 hne)]
    rw [this, List.takeWhile_append_of_pos (fun x hx => hw x (List.mem_of_mem_drop hx))]
    have : (58 :: 58 :: b :: rest).takeWhile (fun b => !wordBoundary true b) = [] := by
      rw [List.takeWhile_cons_of_neg (by decide)]
    rw [this]
    have := List.length_pos_iff.2 hne
    simp
    omega
  have h0 : src[pos + d.length]? = some 58 := by rw [hat]; simp
  have h1 : src[pos + d.length + 1]? = some 58 := by rw [Nat.add_assoc, hat, List.getElem?_append_right (by omega)]; simp
  have h2 : src[pos + d.length + 2]? = some b := by rw [Nat.add_assoc, hat, List.getElem?_append_right (by omega)]; simp
  unfold word
  simp only [hscan, Nat.add_sub_cancel]
  rw [slice_some (by omega) (by omega), hsrc, show pos + d.length - pos = d.length by omega, List.take_left]
  simp only [Option.bind_eq_bind, Option.bind_some, Option.pure_def]
  have h0' : src[pos + d.length]? = some (ch ':') := h0
  have h1' : src[pos + d.length + 1]? = some (ch ':') := h1
  rw [if_pos h0', if_pos ⟨h1', List.contains_iff_mem.2 hd, by omega⟩, h2]
  simp [hb]

theorem first_directive {plugins : List (List UInt8)} {toks : List Tok} {d rest : List UInt8} {b : UInt8} (hd : d ∈ directives) (hb : isWs b = false)
    (hr : rest ≠ []) (h : LineOf plugins toks (d ++ 58 :: 58 :: b :: rest)) :
    ∃ t ts, toks = t :: ts ∧ t.kind = .Directive ∧ t.lexeme = d ++ [58, 58] ∧ ts.flatMap Tok.lexeme = b :: rest ∧ ∀ t ∈ ts, TokOk t := by
  obtain ⟨⟨pre, post, q, _, hpost, heol, hlex⟩, hclean, htext, hok⟩ := h
  have key : ∀ d ∈ directives, ∃ x l, d = x :: l ∧ x ∈ [ch 'i', ch 'e', ch 'a'] := by
    intro d hd
    simp only [directives, List.mem_cons, List.not_mem_nil, or_false] at hd
    rcases hd with rfl | rfl | rfl | rfl | rfl | rfl <;> exact ⟨_, _, rfl, by decide⟩
  obtain ⟨x, l, hx, hm⟩ := key d hd
  have hat : (pre ++ (d ++ 58 :: 58 :: b :: rest) ++ post)[pre.length]? = some x := by simp [hx]
  have hxx := hclean x (by simp [hx])
  unfold lexLine at hlex
  rw [if_neg (by
    rw [hat]
    intro h
    rcases eol_iff.1 h with h | h | h
    · cases h
    · cases h; exact hxx.1 rfl
    · cases h; exact hxx.2 rfl), nextToken_word hat hm, word_directive (d := d) (rest := rest ++ post) (b := b) hd (by simp) hb (by
      have := List.length_pos_iff.2 hr
      have := List.length_pos_iff.2 hpost
      simp; omega)] at hlex
  simp only [Option.map_some, Option.bind_eq_bind, Option.bind_eq_some_iff] at hlex
  obtain ⟨lx, hlx, ⟨ts, q'⟩, hts, e⟩ := hlex
  simp only [Option.some.injEq, Prod.mk.injEq] at e
  rw [slice_some (by omega) (by simp; omega)] at hlx
  have hlx' : lx = d ++ [58, 58] := by
    cases hlx
    rw [List.append_assoc, List.drop_left, show pre.length + d.length + 2 - pre.length = (d ++ [58, 58]).length by simp; omega,
      show d ++ 58 :: 58 :: b :: rest ++ post = (d ++ [58, 58]) ++ (b :: rest ++ post) by simp, List.take_left]
  obtain ⟨rfl, rfl⟩ := e
  refine ⟨_, ts, rfl, rfl, hlx', ?_, fun t ht => hok t (by simp [ht])⟩
  simp only [List.flatMap_cons, hlx'] at htext
  have : (d ++ [58, 58]) ++ ts.flatMap Tok.lexeme = (d ++ [58, 58]) ++ (b :: rest) := by rw [htext]; simp
  exact List.append_cancel_left this

/-! ### lines and what is made of them -/

theorem mem_encode {d : Char} {cs : List Char} (hd : d.toNat < 128) (h : ch d ∈ encode cs) : d ∈ cs := by
  obtain ⟨a, b, e⟩ := List.append_of_mem h
  have : [d].map ch <:+: encode cs := ⟨a, b, by rw [e]; simp⟩
  obtain ⟨p, q, e⟩ := enc_infix (s := [d]) (by simpa using hd) (by simp) this
  rw [← e]; simp

theorem encode_append (a b : List Char) : encode (a ++ b) = encode a ++ encode b := by simp [encode]

theorem encode_ne {a : List Char} (h : a ≠ []) : encode a ≠ [] := by
  cases a with
  | nil => exact absurd rfl h
  | cons c a =>
    obtain ⟨b0, conts, he, _⟩ := enc_shape c
    rw [encode, List.flatMap_cons, he]
    simp

theorem clean_encode {cs : List Char} (h : '\n' ∉ cs ∧ '\r' ∉ cs) : ∀ x ∈ encode cs, x ≠ 10 ∧ x ≠ 13 := by
  intro x hx
  constructor
  · rintro rfl; exact h.1 (mem_encode (d := '\n') (by decide) hx)
  · rintro rfl; exact h.2 (mem_encode (d := '\r') (by decide) hx)

/-- a text that starts with no white space, in bytes -/
theorem encode_head {cs : List Char} (hne : cs ≠ []) (h : ∀ c ∈ cs.head?, Regex.space c = false) : ∃ b l, encode cs = b :: l ∧ isWs b = false := by
  cases cs with
  | nil => exact absurd rfl hne
  | cons c cs =>
    obtain ⟨b0, conts, he, _⟩ := enc_shape c
    refine ⟨b0, conts ++ encode cs, by rw [encode, List.flatMap_cons, he]; rfl, ?_⟩
    false_or_by_contra
    rename_i hw
    have hw' : isWs b0 = true := by simpa using hw
    have : ∃ d : Char, d.toNat < 128 ∧ b0 = ch d ∧ Regex.space d = true := by
      simp only [isWs, Bool.or_eq_true, beq_iff_eq] at hw'
      rcases hw' with (((rfl | rfl) | rfl) | rfl) | rfl
      · exact ⟨' ', by decide, by decide, by decide⟩
      · exact ⟨'\t', by decide, by decide, by decide⟩
      · exact ⟨'\n', by decide, by decide, by decide⟩
      · exact ⟨'\x0c', by decide, by decide, by decide⟩
      · exact ⟨'\r', by decide, by decide, by decide⟩
    obtain ⟨d, hd, rfl, hs⟩ := this
    obtain ⟨rfl, _⟩ := enc_head (c := c) (l := []) hd (by rw [he]; simp; rfl)
    have := h c (by simp)
    rw [hs] at this
    cases this

theorem infix_split {d a b : List Char} {x : Char} (hx : x ∉ d) (h : d <:+: a ++ x :: b) : d <:+: a ∨ d <:+: b := by
  obtain ⟨p, q, e⟩ := h
  rw [List.append_assoc] at e
  rcases List.append_eq_append_iff.1 e with ⟨a', e1, e2⟩ | ⟨c', e1, e2⟩
  · -- the text starts in the left part
    rcases List.append_eq_append_iff.1 e2 with ⟨a'', e3, e4⟩ | ⟨c'', e3, e4⟩
    · exact .inl ⟨p, a'', by rw [e1, e3]; simp⟩
    · cases c'' with
      | nil =>
        simp only [List.append_nil] at e3
        exact .inl ⟨p, [], by rw [e1, e3]; simp⟩
      | cons y c'' =>
        simp only [List.cons_append, List.cons.injEq] at e4
        exact absurd (by rw [e3, ← e4.1]; simp) hx
  · cases c' with
    | nil =>
      simp only [List.nil_append] at e2
      cases d with
      | nil => exact .inl (List.nil_infix)
      | cons y d =>
        simp only [List.cons_append, List.cons.injEq] at e2
        exact absurd (by rw [e2.1]; simp) hx
    | cons y c' =>
      simp only [List.cons_append, List.cons.injEq] at e2
      exact .inr ⟨c', q, by rw [e2.2]; simp⟩

theorem NoDirective.join {a b : List Char} {x : Char} (hx : ∀ d ∈ ["include::", "ifdef::", "ifndef::", "endif::", "ifeval::", "asciidorkinclude::"], x ∉ d.toList)
    (ha : NoDirective a) (hb : NoDirective b) : NoDirective (a ++ x :: b) := by
  intro d hd h
  rcases infix_split (hx d hd) h with h | h
  · exact ha d hd h
  · exact hb d hd h

theorem NoDirective.nil : NoDirective [] := by
  intro d hd h
  have : d.toList = [] := by simpa using h
  revert hd
  rw [show d = "" from by rw [← String.toList_inj]; simpa using this]
  decide

theorem PlainText.nil : PlainText [] := ⟨by simp, by simp, by simp, NoDirective.nil⟩

theorem skipToks_plain {toks : List Tok} (h : ∀ t ∈ toks, t.kind ≠ .Directive) (depth : Nat) : skipToks depth toks = some depth := by
  induction toks with
  | nil => rfl
  | cons t ts ih =>
    have hd : ∀ n, isDir t n = false := by
      intro n
      have := h t (by simp)
      simp [isDir, this]
    rw [skipToks, hd, hd, hd]
    simpa using ih fun t ht => h t (by simp [ht])

/-- the tokens of a line give what is said of the line -/
structure Rel {F : Type} (env : Env F) (toks : List Tok) (d : DLine) : Prop where
  inModel : inModel (lineText toks) = true
  first : firstDir env toks = some d.first
  embedded : embeddedOk env d.first = true
  text : lineText toks = d.text
  inner : d.inner = []
  skip : ∀ depth, skipToks depth toks = skipTokens depth d.first.toList

theorem rel_text {F : Type} {env : Env F} {toks : List Tok} {t : List Char} (ht : PlainText t) (h : LineOf env.plugins toks (encode t)) :
    Rel env toks ⟨none, [], t⟩ := by
  have hl := lineText_eq h.text
  have hn := no_dir h.text h.ok ht.noDirective
  refine ⟨?_, ?_, rfl, hl, rfl, fun depth => skipToks_plain hn depth⟩
  · rw [hl]
    have h1 := ht.noRef
    have h2 := ht.noEntry
    simp [Directives.inModel, h1, h2]
  · cases toks with
    | nil => rfl
    | cons x xs =>
      have := hn x (by simp)
      simp [firstDir, this]

theorem isDir_of {t : Tok} {d : List UInt8} (hk : t.kind = .Directive) (hl : t.lexeme = d) (name : String) : isDir t name = (d == bs name) := by
  simp [isDir, hk, hl]

theorem ifLine_bytes (d : Bool) (a c : List Char) :
    encode (ifLine d a c) = (if d then bs "ifdef" else bs "ifndef") ++ 58 :: 58 :: encode (a ++ '[' :: (c ++ [']'])) := by
  cases d <;> simp [ifLine, encode, String.utf8EncodeChar, bs, ch]

theorem embedded_ok {F : Type} {env : Env F} {d : Bool} {a c : List Char} (hc : PlainText c) : embeddedOk env (some (.ifdef d a c)) = true := by
  cases c with
  | nil => rfl
  | cons x e =>
    obtain ⟨toks, h1, h2, h3⟩ := lexLine_spec (plugins := env.plugins) (post := [10]) (by decide) ((encode (x :: e) ++ [10]).length + 1) [] (encode (x :: e))
      (clean_encode hc.line) (by simp; omega)
    have hn := no_dir h2 h3 hc.noDirective
    cases toks with
    | nil => exact absurd h2.symm (encode_ne (by simp))
    | cons t ts =>
      simp only [List.nil_append, List.length_nil] at h1
      have hk := hn t (by simp)
      have hm1 := hc.noRef
      have hm2 := hc.noEntry
      have hm : Directives.inModel (x :: e) = true := by simp only [Directives.inModel, Bool.and_eq_true]; simp at hm1 hm2 ⊢; exact ⟨hm1, hm2⟩
      rw [encode] at h1
      simp only [embeddedOk, h1, hm]
      simpa using hk

theorem rel_if {F : Type} {env : Env F} {toks : List Tok} {d : Bool} {a : Names} {c : List Char} (ha : a.Written) (hc : PlainText c)
    (h : LineOf env.plugins toks (encode (ifLine d a.text c))) : Rel env toks ⟨some (.ifdef d a.text c), [], ifLine d a.text c⟩ := by
  have hl := lineText_eq h.text
  rw [ifLine_bytes] at h
  have hne : a.text ≠ [] := by
    intro e
    have := ha.long
    rw [e] at this; simp at this
  obtain ⟨b, l, hb, hw⟩ := encode_head hne (fun x hx => (ha.chars x (List.mem_of_mem_head? hx)).1)
  have hrest : encode (a.text ++ '[' :: (c ++ [']'])) = b :: (l ++ encode ('[' :: (c ++ [']']))) := by rw [encode_append, hb]; rfl
  rw [hrest] at h
  obtain ⟨t, ts, rfl, hk, hlx, hts, hok⟩ := first_directive (d := if d then bs "ifdef" else bs "ifndef") (by cases d <;> decide) hw (by
    intro e
    exact encode_ne (a := '[' :: (c ++ [']'])) (by simp) (List.append_eq_nil_iff.1 e).2) h
  rw [← hrest] at hts
  have hnd : NoDirective (a.text ++ '[' :: (c ++ ']' :: [])) := ha.noDirective.join (by decide) (hc.noDirective.join (by decide) NoDirective.nil)
  have hn := no_dir hts hok hnd
  obtain ⟨i, x, hix⟩ : ∃ i x, a.text = i ++ [x] := ⟨a.text.dropLast, a.text.getLast hne, (List.dropLast_concat_getLast hne).symm⟩
  have hm : matchIfdef (ifLine d a.text c) = some (a.text, c) := by
    have hlong := ha.long
    rw [hix] at hlong ⊢
    have hch := ha.chars
    rw [hix] at hch
    have := ifdef_match i c x (by rintro rfl; simp at hlong) (fun hm => (hch _ hm).2.1 rfl) (hch x (by simp)).1 hc.line.1
    cases d
    · exact this.2
    · exact this.1
  have his := isDir_of hk hlx
  refine ⟨?_, ?_, embedded_ok hc, hl, rfl, ?_⟩
  · rw [hl]
    have h1 : '{' ∉ a.text := fun hm => (ha.chars _ hm).2.2 rfl
    have h2 := hc.noRef
    cases d <;> simp [Directives.inModel, ifLine, h1, h2]
  · cases d
    · have e1 : isDir t "ifdef::" = false := by rw [his]; decide
      have e2 : isDir t "ifndef::" = true := by rw [his]; decide
      simp only [firstDir, hk, e1, e2, hl, hm]
      simp
    · have e2 : isDir t "ifdef::" = true := by rw [his]; decide
      simp only [firstDir, hk, e2, hl, hm]
      simp
  · intro depth
    have e0 : isDir t "endif::" = false := by rw [his]; cases d <;> decide
    have e1 : (isDir t "ifdef::" || isDir t "ifndef::") = true := by rw [his, his]; cases d <;> decide
    rw [skipToks, e0, e1, skipToks_plain hn]
    simp [skipTokens]

theorem endLine_eq (t : List Char) : endLine t = "endif::".toList ++ t ++ ['[', ']'] := rfl

theorem evalLine_eq (t : List Char) : evalLine t = "ifeval::[".toList ++ t ++ [']'] := rfl

theorem rel_end {F : Type} {env : Env F} {toks : List Tok} {target : List Char} (ht : ∀ c ∈ target, Regex.space c = false ∧ c ≠ '[' ∧ c ≠ '{') (hnd : NoDirective target)
    (h : LineOf env.plugins toks (encode (endLine target))) : Rel env toks ⟨some (.endif target), [], endLine target⟩ := by
  have hl := lineText_eq h.text
  have hbytes : encode (endLine target) = bs "endif" ++ 58 :: 58 :: (encode target ++ [91, 93]) := by
    rw [endLine_eq, encode_append, encode_append, enc_bs (s := "endif::".toList) (by decide), enc_bs (s := ['[', ']']) (by decide),
      show "endif::".toList.map ch = bs "endif" ++ [58, 58] by decide, show ['[', ']'].map ch = [91, 93] by decide]
    simp only [List.append_assoc, List.cons_append, List.nil_append]
  obtain ⟨b, l, hb, hw⟩ := encode_head (cs := target ++ ['[', ']']) (by simp) (by
    intro x hx
    cases target with
    | nil =>
      simp only [List.nil_append, List.head?_cons, Option.mem_def, Option.some.injEq] at hx
      subst hx; decide
    | cons y ys =>
      simp only [List.cons_append, List.head?_cons, Option.mem_def, Option.some.injEq] at hx
      subst hx; exact (ht y (by simp)).1)
  have hb' : encode target ++ [91, 93] = b :: l := by
    rw [← hb, encode_append]; rfl
  have hl0 : l ≠ [] := by
    rintro rfl
    have := congrArg List.length hb'
    simp at this
  rw [hbytes, hb'] at h
  obtain ⟨t, ts, rfl, hk, hlx, hts, hok⟩ := first_directive (d := bs "endif") (by decide) hw hl0 h
  rw [← hb'] at hts
  have hlen : 3 ≤ (t :: ts).length := by
    match ts, hts, hok with
    | [], hts, _ => simp at hts
    | [x], hts, hok =>
      exfalso
      have hx := hok x (by simp)
      have e : x.lexeme = encode target ++ [91, 93] := by simpa using hts
      cases htg : encode target with
      | nil =>
        rw [htg] at e
        have := hx.bracket (by rw [e]; rfl)
        rw [e] at this
        simp at this
      | cons y ys =>
        rw [htg] at e
        refine hx.inner ?_
        rw [e]; simp
    | _ :: _ :: _, _, _ => simp
  have his := isDir_of hk hlx
  have e0 : isDir t "ifdef::" = false := by rw [his]; decide
  have e1 : isDir t "ifndef::" = false := by rw [his]; decide
  have e2 : isDir t "endif::" = true := by rw [his]; decide
  have htar : endifTarget (t :: ts) = some target := by
    rw [endifTarget, e2, hl]
    simp only [Bool.not_true, Bool.false_or, decide_eq_true_eq]
    rw [if_neg (by omega)]
    exact endif_match target fun c hc => (ht c hc).1
  refine ⟨?_, ?_, rfl, hl, rfl, ?_⟩
  · rw [hl]
    have h1 : '{' ∉ target := fun hm => (ht _ hm).2.2 rfl
    rw [endLine_eq]
    simp [Directives.inModel, h1]
  · simp only [firstDir, hk, e0, e1, e2, htar]
    simp
  · intro depth
    rw [skipToks, e2, htar]
    simp [skipTokens]

theorem operand_chars {o : Operand} (h : o.Ok) : ∀ c ∈ o.text, c ≠ '\n' ∧ c ≠ '\r' ∧ c ≠ '{' := by
  intro c hc
  cases o with
  | int m n =>
    have : c = '-' ∨ c.isDigit = true := by
      simp only [Operand.text, List.mem_append] at hc
      rcases hc with hc | hc
      · cases m
        · simp at hc
        · left; simpa using hc
      · right; exact Nat.isDigit_of_mem_toDigits (by decide) (by decide) hc
    rcases this with rfl | hd
    · decide
    · refine ⟨?_, ?_, ?_⟩ <;> (rintro rfl; revert hd; decide)
  | str q s =>
    obtain ⟨hq, h1, h2, h3, _⟩ := h
    simp only [Operand.text, List.mem_cons, List.mem_append, List.not_mem_nil, or_false] at hc
    rcases hc with rfl | hc | rfl
    · rcases hq with rfl | rfl <;> decide
    · exact ⟨fun e => h1 (e ▸ hc), fun e => h2 (e ▸ hc), fun e => h3 (e ▸ hc)⟩
    · rcases hq with rfl | rfl <;> decide

theorem operand_ne (o : Operand) : o.text ≠ [] := by
  cases o with
  | int m n => simp [Operand.text, Nat.toDigits_ne_nil]
  | str q s => simp [Operand.text]

/-- neither the first nor the last character of an operand is a space, and the first is no `=` -/
theorem operand_ends {o : Operand} (h : o.Ok) : o.text.head? ≠ some ' ' ∧ o.text.getLast? ≠ some ' ' ∧ o.text.head? ≠ some '=' := by
  cases o with
  | int m n =>
    have hd : ∀ c ∈ Operand.text (.int m n), c ≠ ' ' ∧ c ≠ '=' := by
      intro c hc
      have : c = '-' ∨ c.isDigit = true := by
        simp only [Operand.text, List.mem_append] at hc
        rcases hc with hc | hc
        · cases m
          · simp at hc
          · left; simpa using hc
        · right; exact Nat.isDigit_of_mem_toDigits (by decide) (by decide) hc
      rcases this with rfl | hd
      · decide
      · constructor <;> (rintro rfl; revert hd; decide)
    refine ⟨fun e => ?_, fun e => ?_, fun e => ?_⟩
    · exact (hd _ (List.mem_of_mem_head? e)).1 rfl
    · exact (hd _ (List.mem_of_getLast? e)).1 rfl
    · exact (hd _ (List.mem_of_mem_head? e)).2 rfl
  | str q s =>
    have hl : (Operand.text (.str q s)).getLast? = some q := by
      rw [Operand.text, ← List.cons_append, List.getLast?_append]; rfl
    rw [hl]
    simp only [Operand.text, List.head?_cons]
    rcases h.1 with rfl | rfl <;> decide

theorem operand_noDirective {o : Operand} (h : o.Ok) : NoDirective o.text := by
  cases o with
  | int m n =>
    intro d hd hin
    have hcol : ':' ∈ d.toList := by
      clear hin
      revert d
      decide
    have hm : ':' ∈ Operand.text (.int m n) := hin.subset hcol
    simp only [Operand.text, List.mem_append] at hm
    rcases hm with hm | hm
    · cases m <;> simp at hm
    · have := Nat.isDigit_of_mem_toDigits (by decide) (by decide) hm
      revert this; decide
  | str q s =>
    obtain ⟨hq, _, _, _, hn⟩ := h
    rw [Operand.text, show q :: (s ++ [q]) = [] ++ q :: (s ++ q :: []) by simp]
    have hx : ∀ d ∈ ["include::", "ifdef::", "ifndef::", "endif::", "ifeval::", "asciidorkinclude::"], q ∉ d.toList := by
      rcases hq with rfl | rfl <;> decide
    exact NoDirective.nil.join hx (hn.join hx NoDirective.nil)

theorem op_then (op : Ifeval.Op) {rest : List Char} (h : rest.head? ≠ some '=') : OpThen op.spelling.toList rest := by
  cases op with
  | eq => exact .two '=' rest (by simp)
  | ne => exact .two '!' rest (by simp)
  | le => exact .two '<' rest (by simp)
  | ge => exact .two '>' rest (by simp)
  | lt => exact .one '<' rest (by simp) h
  | gt => exact .one '>' rest (by simp) h

theorem op_noDirective (op : Ifeval.Op) (k m : Nat) {a b : List Char} (ha : NoDirective a) (hb : NoDirective b) :
    NoDirective (a ++ List.replicate k ' ' ++ op.spelling.toList ++ List.replicate m ' ' ++ b) := by
  have sp : ∀ d ∈ ["include::", "ifdef::", "ifndef::", "endif::", "ifeval::", "asciidorkinclude::"], ' ' ∉ d.toList := by decide
  have spaces : ∀ (m : Nat) {b : List Char}, NoDirective b → ∀ {a : List Char}, NoDirective a → NoDirective (a ++ List.replicate m ' ' ++ b) ∨ m = 0 := by
    intro m
    induction m with
    | zero => intro b hb a ha; exact .inr rfl
    | succ m ih =>
      intro b hb a ha
      left
      cases m with
      | zero => simpa using ha.join sp hb
      | succ m =>
        rcases ih hb (a := []) NoDirective.nil with h | h
        · have := ha.join sp h
          simpa [List.replicate_succ] using this
        · omega
  have hright : NoDirective (op.spelling.toList ++ List.replicate m ' ' ++ b) ∧ True := by
    refine ⟨?_, trivial⟩
    have hb' : ∀ x, (∀ d ∈ ["include::", "ifdef::", "ifndef::", "endif::", "ifeval::", "asciidorkinclude::"], x ∉ d.toList) →
        NoDirective (x :: (List.replicate m ' ' ++ b)) := by
      intro x hx
      have h1 : NoDirective (List.replicate m ' ' ++ b) := by
        rcases spaces m hb (a := []) NoDirective.nil with h | rfl
        · simpa using h
        · simpa using hb
      simpa using NoDirective.nil.join hx h1
    cases op
    · simpa [Ifeval.Op.spelling] using NoDirective.nil.join (x := '=') (by decide) (hb' '=' (by decide))
    · simpa [Ifeval.Op.spelling] using NoDirective.nil.join (x := '!') (by decide) (hb' '=' (by decide))
    · simpa [Ifeval.Op.spelling] using hb' '<' (by decide)
    · simpa [Ifeval.Op.spelling] using NoDirective.nil.join (x := '<') (by decide) (hb' '=' (by decide))
    · simpa [Ifeval.Op.spelling] using hb' '>' (by decide)
    · simpa [Ifeval.Op.spelling] using NoDirective.nil.join (x := '>') (by decide) (hb' '=' (by decide))
  rcases spaces k hright.1 ha with h | rfl
  · simpa using h
  · -- the operator follows at once
    obtain ⟨x, l, hxl, hx⟩ : ∃ x l, op.spelling.toList = x :: l ∧ ∀ d ∈ ["include::", "ifdef::", "ifndef::", "endif::", "ifeval::", "asciidorkinclude::"], x ∉ d.toList := by
      cases op <;> exact ⟨_, _, rfl, by decide⟩
    have h1 := hright.1
    rw [hxl] at h1 ⊢
    have h2 : NoDirective (l ++ List.replicate m ' ' ++ b) := by
      intro d hd hin
      exact h1 d hd (hin.trans (List.suffix_cons _ _).isInfix)
    simpa using ha.join hx h2

theorem operand_coerce {F : Type} {parseFloat : List Char → Option F} {o : Operand} (h : o.Ok)
    (hf : ∀ s, s.head? = some '"' ∨ s.head? = some '\'' → parseFloat s = none)
    (hint : ∀ n : Nat, (n < 2 ^ 63 → Ifeval.coerce parseFloat (Nat.toDigits 10 n) = some (.int n)) ∧ (n ≤ 2 ^ 63 → Ifeval.coerce parseFloat ('-' :: Nat.toDigits 10 n) = some (.int (-n))))
    (hstr : ∀ (s : List Char) (q : Char), q = '\'' ∨ q = '"' → parseFloat (q :: (s ++ [q])) = none → Ifeval.coerce parseFloat (q :: (s ++ [q])) = some (.str s)) :
    Ifeval.coerce parseFloat o.text = some o.value := by
  cases o with
  | int m n =>
    have h' : n < 2 ^ 63 := h
    cases m
    · simpa [Operand.text, Operand.value] using (hint n).1 h'
    · simpa [Operand.text, Operand.value] using (hint n).2 (by omega)
  | str q s =>
    refine hstr s q h.1.symm (hf _ ?_)
    rcases h.1 with rfl | rfl
    · exact .inl rfl
    · exact .inr rfl

theorem comparison_match {c : Comparison} (h : c.Ok) : matchIfeval (evalLine c.text) = some ([], c.left.text, c.op.spelling.toList, c.right.text) := by
  obtain ⟨hl, hr, ho⟩ := h
  have e : evalLine c.text = "ifeval::[".toList ++ c.left.text ++ List.replicate c.before ' ' ++ c.op.spelling.toList ++ List.replicate c.after ' ' ++ c.right.text ++ [']'] := by
    rw [evalLine_eq, Comparison.text]
    simp only [List.append_assoc]
  rw [e]
  refine ifeval_match _ _ _ _ _ (operand_ne _) ?_ (operand_ends hl).2.1 ?_ ?_ ?_ ?_ (operand_ne _) (operand_ends hr).1 ?_
  · intro x hx
    have := ho x hx
    simp only [List.mem_cons, List.not_mem_nil, or_false, not_or] at this
    simp [opChar, this.1, this.2.1, this.2.2.1, this.2.2.2]
  · exact fun hm => (operand_chars hl _ hm).1 rfl
  · intro x hx; exact (List.mem_replicate.1 hx).2
  · intro x hx; exact (List.mem_replicate.1 hx).2
  · refine op_then _ ?_
    have h3 := (operand_ends hr).2.2
    have hne := operand_ne c.right
    cases c.after with
    | zero => rw [List.replicate_zero, List.nil_append, head_left hne]; exact h3
    | succ k => simp [List.replicate_succ]
  · exact fun hm => (operand_chars hr _ hm).1 rfl

theorem comparison_chars {c : Comparison} (h : c.Ok) : ∀ x ∈ c.text, x ≠ '\n' ∧ x ≠ '\r' ∧ x ≠ '{' := by
  intro x hx
  simp only [Comparison.text, List.mem_append] at hx
  rcases hx with (((hx | hx) | hx) | hx) | hx
  · exact operand_chars h.1 x hx
  · rw [(List.mem_replicate.1 hx).2]; decide
  · revert x; cases c.op <;> decide
  · rw [(List.mem_replicate.1 hx).2]; decide
  · exact operand_chars h.2.1 x hx

theorem rel_eval {F : Type} {env : Env F} {toks : List Tok} {c : Comparison} {holds : Bool} (hc : c.Ok)
    (hcond : condition env (evalLine c.text) = some (some holds))
    (h : LineOf env.plugins toks (encode (evalLine c.text))) : Rel env toks ⟨some (.ifeval (some holds)), [], evalLine c.text⟩ := by
  have hl := lineText_eq h.text
  have hbytes : encode (evalLine c.text) = bs "ifeval" ++ 58 :: 58 :: 91 :: encode (c.text ++ [']']) := by
    rw [evalLine_eq, encode_append, encode_append, encode_append, enc_bs (s := "ifeval::[".toList) (by decide),
      show "ifeval::[".toList.map ch = bs "ifeval" ++ [58, 58, 91] by decide]
    simp only [List.append_assoc, List.cons_append, List.nil_append]
  rw [hbytes] at h
  obtain ⟨t, ts, rfl, hk, hlx, hts, hok⟩ := first_directive (d := bs "ifeval") (by decide) (by decide) (encode_ne (by simp)) h
  have hts' : ts.flatMap Tok.lexeme = encode ('[' :: (c.text ++ [']'])) := by
    rw [hts, encode, encode, List.flatMap_cons, enc_ascii (by decide)]; rfl
  have hnd : NoDirective ([] ++ '[' :: (c.text ++ ']' :: [])) :=
    NoDirective.nil.join (by decide) ((op_noDirective c.op c.before c.after (operand_noDirective hc.1) (operand_noDirective hc.2.1)).join (by decide) NoDirective.nil)
  have hn := no_dir hts' hok hnd
  have his := isDir_of hk hlx
  have e0 : isDir t "ifdef::" = false := by rw [his]; decide
  have e1 : isDir t "ifndef::" = false := by rw [his]; decide
  have e2 : isDir t "endif::" = false := by rw [his]; decide
  have e3 : isDir t "ifeval::" = true := by rw [his]; decide
  refine ⟨?_, ?_, rfl, hl, rfl, ?_⟩
  · rw [hl]
    have h1 : '{' ∉ c.text := fun hm => (comparison_chars hc _ hm).2.2 rfl
    rw [evalLine_eq]
    simp [Directives.inModel, h1]
  · simp only [firstDir, hk, e0, e1, e2, e3, hl, hcond]
    simp
  · intro depth
    rw [skipToks, e0, e1, e2]
    simp [skipTokens, skipToks_plain hn]

/-! ### reading -/

theorem skipLines_rel {F : Type} {env : Env F} {tokss : List (List Tok)} {dls : List DLine} (h : Pairs (Rel env) tokss dls) :
    ∀ depth, (skipLines depth tokss = none ∧ skipUntilEndif depth dls = none) ∨
      ∃ t' d', skipLines depth tokss = some t' ∧ skipUntilEndif depth dls = some d' ∧ Pairs (Rel env) t' d' ∧ d'.length < dls.length := by
  induction h with
  | nil => intro depth; exact .inl ⟨rfl, rfl⟩
  | cons hr hp ih =>
    intro depth
    rename_i t d ts ds
    have hs := hr.skip depth
    have hi := hr.inner
    unfold skipLines skipUntilEndif
    rw [hs, hi, List.append_nil]
    cases hk : skipTokens depth d.first.toList with
    | none => exact .inr ⟨ts, ds, rfl, rfl, hp, by simp⟩
    | some depth' =>
      simp only
      rcases ih depth' with h | ⟨t', d', h1, h2, h3, h4⟩
      · exact .inl h
      · exact .inr ⟨t', d', h1, h2, h3, by simp; omega⟩

theorem readToks_rel {F : Type} {env : Env F} : ∀ (n : Nat) {tokss : List (List Tok)} {dls : List DLine}, dls.length ≤ n → Pairs (Rel env) tokss dls →
    ∀ stack, readToks env stack tokss = some (readAll env.isSet stack dls) := by
  intro n
  induction n with
  | zero =>
    intro tokss dls hn h stack
    cases h with
    | nil => rw [readToks, readAll]
    | cons => simp at hn
  | succ n ih =>
    intro tokss dls hn h stack
    cases h with
    | nil => rw [readToks, readAll]
    | cons hr hp =>
      rename_i t d ts ds
      simp only [List.length_cons] at hn
      obtain ⟨first, inner, text⟩ := d
      have h1 := hr.inModel; have h2 := hr.first; have h3 := hr.embedded; have h4 := hr.text; have h5 := hr.inner
      simp only at h2 h3 h4 h5
      subst h5
      rw [h4] at h1
      rw [readToks, readAll]
      simp only [h1, h2, h3, h4, Bool.not_true, Bool.false_eq_true, if_false]
      rcases hact : action env.isSet stack ⟨first, [], text⟩ with ⟨a, st, es⟩
      cases a with
      | deliver x => simp only [ih (by omega) hp]; rfl
      | readNext => simp only [ih (by omega) hp]; rfl
      | skip =>
        simp only
        rcases skipLines_rel hp 1 with ⟨e1, e2⟩ | ⟨t', d', e1, e2, e3, e4⟩
        · split
          · split
            · rfl
            · rename_i hh; rw [e2] at hh; cases hh
          · rename_i hh; rw [e1] at hh; cases hh
        · split
          · rename_i hh; rw [e1] at hh; cases hh
          · rename_i ls' hh
            rw [e1] at hh; cases hh
            split
            · rename_i hh; rw [e2] at hh; cases hh
            · rename_i ls'' hh
              rw [e2] at hh; cases hh
              rw [ih (by omega) e3]; rfl

end Verif.Directives

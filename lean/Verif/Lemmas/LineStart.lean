import Verif.Lemmas.Verbatim
/-! Lemmas: what the tokens of a line are, from the bytes they start with. -/
namespace Verif.Lexer
open TokenKind Verif.Directives

/-- kinds of tokens whose first byte stands for itself in no table -/
def otherKinds : List TokenKind :=
  [Word, UriScheme, MacroName, Directive, MaybeEmail, Entity, Ampersand, AttrRef, OpenBrace, Punctuation, AttrPassDbl]

/-- length of the callout number `<12>` or `<.>` at the start -/
def calloutLen (l : List UInt8) : Option Nat :=
  let d := l.tail.takeWhile isDigit
  if d ≠ [] ∧ l.tail[d.length]? = some (ch '>') then some (d.length + 2)
  else if l.tail[0]? = some (ch '.') ∧ l.tail[1]? = some (ch '>') then some 3
  else none

/-- length of the delimiter after a term, `::`, `:::`, `::::` or `;;`, at the start -/
def termLen (l : List UInt8) : Option Nat :=
  match l with
  | [] => none
  | c :: _ =>
    let n := (l.takeWhile (· == c)).length
    if 2 ≤ n ∧ n ≤ (if c = ch ':' then 4 else 2) ∧ termEnd l[n]? = true then some n else none

/-- The kind and the length of the first token of what is left of a line; `bol`: it is the first of the line. -/
inductive First (bol : Bool) (line : List UInt8) : TokenKind → Nat → Prop where
  | delim {c k} : bol = true → c ∈ bs "_-*=.+/" → k = 2 ∧ c = ch '-' ∨ 4 ≤ k → line = List.replicate k c → First bol line DelimiterLine k
  | ticks : bol = true → line.take 3 = bs "```" → First bol line DelimiterLine 3
  | one {b K} : line.head? = some b → simpleTable.lookup b = some (.one K) → First bol line K 1
  | run {b K} : line.head? = some b → simpleTable.lookup b = some (.run K) → First bol line K (line.takeWhile (· == b)).length
  | space {b} : line.head? = some b → isSpace b = true → First bol line Whitespace (line.takeWhile isSpace).length
  | digits {b} : line.head? = some b → isDigit b = true → First bol line Digits (line.takeWhile isDigit).length
  | callout {k} : line.head? = some (ch '<') → calloutLen line = some k → First bol line CalloutNumber k
  | xml {k} : line.head? = some (ch '<') → line[1]? = some (ch '!') → 2 ≤ k → First bol line CalloutNumber k
  | less : line.head? = some (ch '<') → calloutLen line = none → First bol line LessThan 1
  | term {b k} : line.head? = some b → b = ch ':' ∨ b = ch ';' → bol = false → termLen line = some k → First bol line TermDelimiter k
  | colon {b K} : line.head? = some b → b = ch ':' ∧ K = Colon ∨ b = ch ';' ∧ K = SemiColon → bol = true ∨ termLen line = none → First bol line K 1
  | other {b K k} : line.head? = some b → simpleTable.lookup b = none → isSpace b = false → isDigit b = false → b ≠ ch '<' → b ≠ ch ':' → b ≠ ch ';' →
      K ∈ otherKinds → First bol line K k

theorem wordMacro_other {src : List UInt8} {plugins : List (List UInt8)} {start stop : Nat} {lexeme : List UInt8} :
    (wordMacro src plugins start stop lexeme).kind ∈ otherKinds := by
  unfold wordMacro
  split
  · simp [otherKinds]
  · split
    · simp [otherKinds]
    · split
      · simp [otherKinds]
      · split <;> simp [otherKinds]

theorem wordEmail_other {src : List UInt8} {start stop : Nat} {s : Step} (h : wordEmail src start stop = some s) : s.kind ∈ otherKinds := by
  unfold wordEmail at h
  simp only [Option.bind_eq_bind, Option.bind_eq_some_iff] at h
  obtain ⟨d, _, h⟩ := h
  split at h <;> cases h <;> simp [otherKinds]

theorem word_other {src : List UInt8} {plugins : List (List UInt8)} {pos : Nat} {s : Step} (h : word src plugins pos = some s) : s.kind ∈ otherKinds := by
  unfold word at h
  simp only [Option.bind_eq_bind, Option.bind_eq_some_iff] at h
  obtain ⟨d, _, h⟩ := h
  split at h
  · split at h
    · simp only [Option.bind_eq_some_iff] at h
      obtain ⟨b, _, h⟩ := h
      split at h <;> cases h <;> simp [otherKinds]
    · simp only [Option.bind_eq_some_iff] at h
      obtain ⟨b, _, h⟩ := h
      split at h
      · cases h; simp [otherKinds]
      · cases h; exact wordMacro_other
  · split at h
    · exact wordEmail_other h
    · cases h; simp [otherKinds]

theorem maybeAttrRef_other {src : List UInt8} {pos : Nat} {s : Step} (h : maybeAttrRef src pos = some s) : s.kind ∈ otherKinds := by
  unfold maybeAttrRef at h
  simp only [Option.bind_eq_bind, Option.pure_def] at h
  split at h
  · cases h; simp [otherKinds, single]
  · simp only [Option.bind_eq_some_iff] at h
    obtain ⟨_, _, h⟩ := h
    split at h <;> cases h <;> simp [otherKinds, single]

theorem finishEntity_other {src : List UInt8} {pos i : Nat} {f : UInt8 → Bool} : (finishEntity src pos i f).kind ∈ otherKinds := by
  unfold finishEntity
  simp only
  split
  · split <;> simp [otherKinds, single]
  · simp [otherKinds, single]

theorem maybeEntity_other {src : List UInt8} {pos : Nat} : (maybeEntity src pos).kind ∈ otherKinds := by
  unfold maybeEntity
  split
  · exact finishEntity_other
  · split
    · exact finishEntity_other
    · split
      · exact finishEntity_other
      · simp [otherKinds, single]

/-- a line in a source: what is before it, and what follows is the end of the line -/
structure Around (pre line post : List UInt8) : Prop where
  post : eol post[0]? = true
  line : ∀ x ∈ line, x ≠ 10 ∧ x ≠ 13

theorem Around.get {pre line post : List UInt8} (i : Nat) : (pre ++ line ++ post)[pre.length + i]? = (line ++ post)[i]? := by
  rw [List.append_assoc, List.getElem?_append_right (by omega)]
  congr 1; omega

/-- looking at the first position that is behind the line shows its end -/
theorem Around.look {pre line post : List UInt8} (h : Around pre line post) {i : Nat} (hi : i ≤ line.length) :
    (line[i]? = (line ++ post)[i]? ∧ i < line.length) ∨ (line[i]? = none ∧ eol (line ++ post)[i]? = true) := by
  by_cases hl : i < line.length
  · exact .inl ⟨(List.getElem?_append_left hl).symm, hl⟩
  · have : i = line.length := by omega
    subst this
    refine .inr ⟨by simp, ?_⟩
    rw [List.getElem?_append_right (Nat.le_refl _), Nat.sub_self]
    exact h.post

theorem Around.is {pre line post : List UInt8} (h : Around pre line post) {i : Nat} {x : UInt8} (hi : i ≤ line.length) (hx : x ≠ 10 ∧ x ≠ 13) :
    (line ++ post)[i]? = some x ↔ line[i]? = some x := by
  rcases h.look hi with ⟨h1, _⟩ | ⟨h1, h2⟩
  · rw [h1]
  · rw [h1]
    constructor
    · intro hh
      rw [hh] at h2
      rcases eol_iff.1 h2 with h | h | h
      · cases h
      · exact absurd (Option.some.inj h) hx.1
      · exact absurd (Option.some.inj h) hx.2
    · intro hh; cases hh

theorem Around.term {pre line post : List UInt8} (h : Around pre line post) {i : Nat} (hi : i ≤ line.length) :
    termEnd (line ++ post)[i]? = termEnd line[i]? := by
  rcases h.look hi with ⟨h1, _⟩ | ⟨h1, h2⟩
  · rw [h1]
  · rw [h1]
    rcases eol_iff.1 h2 with h | h | h <;> rw [h] <;> decide

theorem Around.takeWhile {pre line post : List UInt8} (h : Around pre line post) {f : UInt8 → Bool} (hf : f 10 = false ∧ f 13 = false) :
    (line ++ post).takeWhile f = line.takeWhile f := by
  have hp : post.takeWhile f = [] := by
    cases post with
    | nil => rfl
    | cons x post =>
      have := h.post
      rw [List.getElem?_cons_zero] at this
      have : f x = false := by
        rcases eol_iff.1 this with h | h | h
        · cases h
        · cases h; exact hf.1
        · cases h; exact hf.2
      simp [this]
  clear h
  induction line with
  | nil => simpa using hp
  | cons x l ih => simp only [List.cons_append, List.takeWhile_cons, ih]

theorem Around.scan {pre line post : List UInt8} {b : UInt8} (h : Around pre (b :: line) post) {f : UInt8 → Bool} (hf : f 10 = false ∧ f 13 = false) (hb : f b = true) :
    scan f (pre ++ (b :: line) ++ post) (pre.length + 1) = pre.length + ((b :: line).takeWhile f).length := by
  unfold Lexer.scan
  rw [List.append_assoc, List.drop_append, List.drop_of_length_le (by omega), List.nil_append, show pre.length + 1 - pre.length = 1 by omega]
  simp only [List.cons_append, List.drop_succ_cons, List.drop_zero]
  have h' : Around pre line post := ⟨h.post, fun x hx => h.line x (by simp [hx])⟩
  rw [h'.takeWhile hf, List.takeWhile_cons, hb]
  simp only [if_true, List.length_cons]
  omega

theorem delimiter_first {pre line post : List UInt8} {b c : UInt8} {len : Nat} (h : Around pre (b :: line) post)
    (hd : atDelimiterLine (pre ++ (b :: line) ++ post) pre.length = some (len, c)) :
    atLineStart (pre ++ (b :: line) ++ post) pre.length = true ∧ First true (b :: line) DelimiterLine len := by
  have h0 : (pre ++ (b :: line) ++ post)[pre.length]? = some b := by simp
  have hend : ∀ i, eol ((b :: line) ++ post)[i]? = true → i < (b :: line).length → False := by
    intro i h1 h2
    rw [List.getElem?_append_left h2, List.getElem?_eq_getElem h2] at h1
    have := h.line _ (List.getElem_mem h2)
    rcases eol_iff.1 h1 with h | h | h
    · cases h
    · exact this.1 (Option.some.inj h)
    · exact this.2 (Option.some.inj h)
  have hb := h.line b (by simp)
  /- the byte `b` again, `i` times after the first -/
  have hrep : ∀ n, 0 < n → (∀ i, i < n → ((b :: line) ++ post)[i]? = some b) → eol ((b :: line) ++ post)[n]? = true → b :: line = List.replicate n b := by
    intro n hn hi he
    have hle : n ≤ (b :: line).length := by
      false_or_by_contra
      rename_i hgt
      have := hi (b :: line).length (by omega)
      rw [h.is (Nat.le_refl _) hb] at this
      simp at this
    have hlen : (b :: line).length = n := by
      false_or_by_contra
      exact hend n he (by omega)
    refine List.eq_replicate_iff.2 ⟨hlen, ?_⟩
    intro x hx
    obtain ⟨i, hi', rfl⟩ := List.getElem_of_mem hx
    have := hi i (by omega)
    rw [List.getElem?_append_left hi', List.getElem?_eq_getElem hi'] at this
    exact Option.some.inj this
  unfold atDelimiterLine at hd
  simp only [h0, Around.get] at hd
  split at hd
  · cases hd
  rename_i hc
  simp only [Bool.or_eq_true, Bool.not_eq_true', not_or, Bool.not_eq_false] at hc
  refine ⟨hc.1, ?_⟩
  have hmem : b ≠ ch '`' → b ∈ bs "_-*=.+/" := by
    intro hn
    have h1 : b ∈ bs "_-*=.+/`" := by
      have := hc.2
      simpa [List.contains_iff_mem] using this
    have e : bs "_-*=.+/`" = bs "_-*=.+/" ++ [ch '`'] := by decide
    rw [e, List.mem_append] at h1
    rcases h1 with h1 | h1
    · exact h1
    · simp at h1; exact absurd h1 hn
  split at hd
  · rename_i h3
    cases hd
    refine .ticks rfl ?_
    obtain ⟨e0, e1, e2, _⟩ := h3
    subst e0
    have l1 : (ch '`' :: line)[1]? = some (ch '`') := (h.is (by simp) hb).1 e1
    obtain ⟨x, line, rfl⟩ : ∃ x l, line = x :: l := by
      cases line with
      | nil => simp at l1
      | cons x l => exact ⟨x, l, rfl⟩
    have l2 : (ch '`' :: x :: line)[2]? = some (ch '`') := (h.is (by simp) hb).1 e2
    obtain ⟨y, line, rfl⟩ : ∃ x l, line = x :: l := by
      cases line with
      | nil => simp at l2
      | cons x l => exact ⟨x, l, rfl⟩
    simp at l1 l2
    subst l1 l2
    rfl
  split at hd
  · rename_i h3
    cases hd
    obtain ⟨e0, e1, e2⟩ := h3
    refine .delim rfl (hmem (by rw [e0]; decide)) (.inl ⟨rfl, e0⟩) (hrep 2 (by omega) ?_ e2)
    intro i hi
    match i, hi with
    | 0, _ => rfl
    | 1, _ => rw [e0]; rw [e0] at e1; exact e1
  split at hd
  · rename_i h3
    cases hd
    obtain ⟨e0, e1, e2, e3, e4⟩ := h3
    refine .delim rfl (hmem (by rintro rfl; revert e0; decide)) (.inr (by omega)) (hrep 4 (by omega) ?_ e4)
    intro i hi
    match i, hi with
    | 0, _ => rfl
    | 1, _ => exact e1
    | 2, _ => exact e2
    | 3, _ => exact e3
  split at hd
  · rename_i h3
    obtain ⟨e0, e1, e2, e3, e4⟩ := h3
    split at hd
    · rename_i he
      injection hd with hd
      injection hd with hd1 hd2
      have hs : Lexer.scan (· == ch '=') (pre ++ (b :: line) ++ post) (pre.length + 5) = pre.length + 5 + (((b :: line) ++ post).drop 5 |>.takeWhile (· == ch '=')).length := by
        unfold Lexer.scan
        rw [List.append_assoc pre, List.drop_append, List.drop_of_length_le (by omega), List.nil_append, show pre.length + 5 - pre.length = 5 by omega]
      rw [hs] at he hd1
      have hlen : len = 5 + (((b :: line) ++ post).drop 5 |>.takeWhile (· == ch '=')).length := by omega
      rw [Nat.add_assoc, ← hlen, Around.get] at he
      refine .delim rfl (hmem (by rw [e0]; decide)) (.inr (by omega)) (hrep len (by omega) ?_ he)
      intro i hi
      match i, hi with
      | 0, _ => rfl
      | 1, _ => exact e1
      | 2, _ => exact e2
      | 3, _ => exact e3
      | 4, _ => exact e4
      | i + 5, hi =>
        have hpre := List.takeWhile_prefix (· == ch '=') (l := ((b :: line) ++ post).drop 5)
        obtain ⟨r, hr⟩ := hpre
        have h5 : ((b :: line) ++ post)[i + 5]? = (((b :: line) ++ post).drop 5)[i]? := by rw [List.getElem?_drop, Nat.add_comm]
        rw [h5, ← hr, List.getElem?_append_left (by omega), List.getElem?_eq_getElem (by omega)]
        have := List.all_takeWhile (p := (· == ch '=')) (l := ((b :: line) ++ post).drop 5)
        rw [List.all_eq_true] at this
        have := this _ (List.getElem_mem (show i < (((b :: line) ++ post).drop 5 |>.takeWhile (· == ch '=')).length by omega))
        simp only [beq_iff_eq] at this
        rw [this, e0]
    · cases hd
  · cases hd

theorem calloutLen_cons (c : UInt8) (l : List UInt8) : calloutLen (c :: l) =
    if l.takeWhile isDigit ≠ [] ∧ l[(l.takeWhile isDigit).length]? = some (ch '>') then some ((l.takeWhile isDigit).length + 2)
    else if l[0]? = some (ch '.') ∧ l[1]? = some (ch '>') then some 3
    else none := rfl

theorem callout_first {pre line post : List UInt8} (bol : Bool) (h : Around pre (ch '<' :: line) post) {s : Step} {k : Nat}
    (hs : maybeCalloutNumber (pre ++ (ch '<' :: line) ++ post) (pre.length + 1) = some s) (hk : s.stop = pre.length + k) :
    First bol (ch '<' :: line) s.kind k := by
  have h' : Around (pre ++ [ch '<']) line post := ⟨h.post, fun x hx => h.line x (by simp [hx])⟩
  have hget : ∀ i, (pre ++ (ch '<' :: line) ++ post)[pre.length + 1 + i]? = (line ++ post)[i]? := by
    intro i
    rw [Nat.add_assoc, Around.get, Nat.add_comm 1]
    rfl
  have hget0 := hget 0
  rw [Nat.add_zero] at hget0
  unfold maybeCalloutNumber at hs
  simp only [Option.bind_eq_bind, Option.pure_def, hget0] at hs
  have less : ∀ p, p = pre.length + 1 → calloutLen (ch '<' :: line) = none → some (single LessThan p) = some s → First bol (ch '<' :: line) s.kind k := by
    rintro p rfl hn e
    cases e
    simp only [single] at hk
    obtain rfl : k = 1 := by omega
    exact .less rfl hn
  have nodigit : ∀ {x : Option UInt8}, (line ++ post)[0]? = x → (∀ y, x = some y → isDigit y = false) → line.takeWhile isDigit = [] := by
    intro x hx hy
    cases line with
    | nil => rfl
    | cons y l =>
      simp at hx
      subst hx
      simp [hy y rfl]
  split at hs
  · rename_i e
    refine less _ rfl ?_ hs
    rw [calloutLen_cons]
    have hnd := nodigit e nofun
    rw [if_neg (fun h => h.1 hnd), if_neg]
    rintro ⟨e1, _⟩
    rw [← h'.is (Nat.zero_le _) (by decide), e] at e1
    cases e1
  · rename_i c hc
    split at hs
    · rename_i hd
      obtain ⟨line, rfl⟩ : ∃ l, line = c :: l := by
        cases line with
        | nil =>
          have := h'.look (i := 0) (by simp)
          rw [hc] at this
          simp at this
          rcases eol_iff.1 this with h | h | h <;> cases h <;> exact absurd hd (by decide)
        | cons y l => simp at hc; subst hc; exact ⟨l, rfl⟩
      have hsc : scan isDigit (pre ++ (ch '<' :: c :: line) ++ post) (pre.length + 1 + 1) = pre.length + 1 + ((c :: line).takeWhile isDigit).length := by
        have := h'.scan (f := isDigit) (by decide) hd
        simp only [List.append_assoc, List.cons_append, List.nil_append, List.length_append, List.length_cons, List.length_nil] at this ⊢
        exact this
      have hne : (c :: line).takeWhile isDigit ≠ [] := by simp [hd]
      have hle : ((c :: line).takeWhile isDigit).length ≤ (c :: line).length := (List.takeWhile_prefix isDigit).length_le
      simp only [hsc, hget] at hs
      split at hs
      · rename_i he
        rw [h'.is hle (by decide)] at he
        cases hs
        simp only at hk
        have : calloutLen (ch '<' :: c :: line) = some k := by
          rw [calloutLen_cons]
          rw [if_pos ⟨hne, he⟩]
          congr 1; omega
        exact .callout rfl this
      · rename_i he
        rw [h'.is hle (by decide)] at he
        refine less _ ?_ ?_ hs
        · omega
        · rw [calloutLen_cons]
          rw [if_neg (fun h => he h.2), if_neg]
          rintro ⟨e1, _⟩
          simp at e1
          subst e1
          revert hd; decide
    · rename_i hd
      have hnd := nodigit hc (by intro y hy; cases hy; simpa using hd)
      have hcl : calloutLen (ch '<' :: line) = if line[0]? = some (ch '.') ∧ line[1]? = some (ch '>') then some 3 else none := by
        rw [calloutLen_cons]
        rw [if_neg (fun h => h.1 hnd)]
      split at hs
      · rename_i hdot
        subst hdot
        have e0 : line[0]? = some (ch '.') := (h'.is (Nat.zero_le _) (by decide)).1 hc
        have hl : 1 ≤ line.length := by
          cases line with
          | nil => simp at e0
          | cons _ _ => simp
        simp only [hget] at hs
        split at hs
        · rename_i he
          rw [h'.is hl (by decide)] at he
          cases hs
          simp only at hk
          obtain rfl : k = 3 := by omega
          exact .callout rfl (by rw [hcl, if_pos ⟨e0, he⟩])
        · rename_i he
          rw [h'.is hl (by decide)] at he
          refine less _ (by omega) ?_ hs
          rw [hcl, if_neg (fun h => he h.2)]
      · rename_i hdot
        have hnone : calloutLen (ch '<' :: line) = none := by
          rw [hcl, if_neg]
          rintro ⟨e, _⟩
          rw [← h'.is (Nat.zero_le _) (by decide), hc] at e
          exact hdot (Option.some.inj e)
        split at hs
        · rename_i hbang
          have hx : (ch '<' :: line)[1]? = some (ch '!') := by
            rw [List.getElem?_cons_succ, ← h'.is (Nat.zero_le _) (by decide), hc, hbang]
          simp only [Option.bind_eq_some_iff] at hs
          obtain ⟨peek, _, hs⟩ := hs
          have hxs : ∀ {st sp : Nat}, pre.length + 2 ≤ sp → some (⟨CalloutNumber, st, sp, sp⟩ : Step) = some s → First bol (ch '<' :: line) s.kind k := by
            intro st sp hle e
            cases e
            simp only at hk
            exact .xml rfl hx (by omega)
          split at hs
          · split at hs
            · exact less _ rfl hnone hs
            · split at hs
              · split at hs
                · exact hxs (by omega) hs
                · exact less _ rfl hnone hs
              · split at hs
                · unfold xmlCallout at hs
                  simp only at hs
                  split at hs
                  · split at hs
                    · exact hxs (by omega) hs
                    · exact less _ rfl hnone hs
                  · exact less _ rfl hnone hs
                · exact less _ rfl hnone hs
          · exact less _ rfl hnone hs
        · exact less _ rfl hnone hs

theorem term_first {pre line post : List UInt8} {b : UInt8} (h : Around pre (b :: line) post) {s : Step} {k : Nat} (bol : Bool) (hb : b = ch ':' ∨ b = ch ';')
    (hs : maybeTermDelimiter (pre ++ (b :: line) ++ post) (pre.length + 1) b bol = some s) (hk : s.stop = pre.length + k) :
    First bol (b :: line) s.kind k := by
  have hget : ∀ i, (pre ++ (b :: line) ++ post)[pre.length + 1 + i]? = (line ++ post)[i]? := by
    intro i
    rw [Nat.add_assoc, Around.get, Nat.add_comm 1]
    rfl
  have hget0 := hget 0
  rw [Nat.add_zero] at hget0
  have h' : Around (pre ++ [b]) line post := ⟨h.post, fun x hx => h.line x (by simp [hx])⟩
  have hb' := h.line b (by simp)
  unfold maybeTermDelimiter at hs
  simp only [Option.bind_eq_bind, Option.pure_def, hget0] at hs
  have colon : (bol = true ∨ termLen (b :: line) = none) → some (single (if b = ch ':' then Colon else SemiColon) (pre.length + 1)) = some s → First bol (b :: line) s.kind k := by
    intro hn e
    cases e
    simp only [single] at hk ⊢
    obtain rfl : k = 1 := by omega
    refine .colon rfl ?_ hn
    rcases hb with rfl | rfl
    · exact .inl ⟨rfl, rfl⟩
    · exact .inr ⟨rfl, rfl⟩
  have htl : ∀ n, line.takeWhile (· == b) = List.replicate n b → termLen (b :: line) = if 2 ≤ n + 1 ∧ n + 1 ≤ (if b = ch ':' then 4 else 2) ∧ termEnd line[n]? = true then some (n + 1) else none := by
    intro n hn
    have e : ((b :: line).takeWhile (· == b)).length = n + 1 := by
      simp [hn]
    simp only [termLen, e]
    rfl
  split at hs
  · rename_i hc
    refine colon ?_ hs
    rcases hc with hc | hc
    · exact .inl hc
    · right
      rw [htl 0, if_neg (by omega)]
      cases line with
      | nil => rfl
      | cons x l =>
        have : x ≠ b := by simpa using hc
        simp [this]
  · rename_i hc
    simp only [not_or, Bool.not_eq_true, Decidable.not_not] at hc
    obtain ⟨rfl, hc⟩ := hc
    obtain ⟨line, rfl⟩ : ∃ l, line = b :: l := by
      rw [h'.is (Nat.zero_le _) hb'] at hc
      cases line with
      | nil => simp at hc
      | cons x l => simp at hc; subst hc; exact ⟨l, rfl⟩
    simp only [Option.bind_eq_some_iff] at hs
    obtain ⟨peek, hp, hs⟩ := hs
    unfold sliceFrom at hp
    split at hp
    · injection hp with hp
      have hpk : ∀ i : Nat, peek[i]? = (line ++ post)[i]? := by
        intro i
        rw [← hp, List.getElem?_drop, Nat.add_assoc, hget, Nat.add_comm]
        rfl
      have h2 : Around (pre ++ [b] ++ [b]) line post := ⟨h.post, fun x hx => h.line x (by simp [hx])⟩
      simp only [hpk] at hs
      split at hs
      · rename_i ht
        rw [h2.term (Nat.zero_le _)] at ht
        cases hs
        simp only at hk
        obtain rfl : k = 2 := by omega
        refine .term rfl hb rfl ?_
        rw [htl 1, if_pos]
        · refine ⟨by omega, by split <;> omega, ?_⟩
          exact ht
        · cases line with
          | nil => simp
          | cons x l =>
            have : x ≠ b := by
              rintro rfl
              rcases hb with rfl | rfl <;> revert ht <;> simp <;> decide
            simp [this]
      · rename_i ht
        rw [h2.term (Nat.zero_le _)] at ht
        split at hs
        · rename_i hcc
          obtain ⟨rfl, hcc⟩ := hcc
          rw [h2.is (Nat.zero_le _) (by decide)] at hcc
          obtain ⟨line, rfl⟩ : ∃ l, line = ch ':' :: l := by
            cases line with
            | nil => simp at hcc
            | cons x l => simp at hcc; subst hcc; exact ⟨l, rfl⟩
          have h3 : Around (pre ++ [ch ':'] ++ [ch ':'] ++ [ch ':']) line post := ⟨h.post, fun x hx => h.line x (by simp [hx])⟩
          simp only [List.cons_append, List.getElem?_cons_succ] at hs
          by_cases h4 : (line ++ post)[0]? = some (ch ':')
          · simp only [h4, if_true] at hs
            rw [h3.is (Nat.zero_le _) (by decide)] at h4
            obtain ⟨line, rfl⟩ : ∃ l, line = ch ':' :: l := by
              cases line with
              | nil => simp at h4
              | cons x l => simp at h4; subst h4; exact ⟨l, rfl⟩
            have h5 : Around (pre ++ [ch ':'] ++ [ch ':'] ++ [ch ':'] ++ [ch ':']) line post := ⟨h.post, fun x hx => h.line x (by simp [hx])⟩
            simp only [List.cons_append, List.getElem?_cons_succ] at hs
            split at hs
            · rename_i ht
              rw [h5.term (Nat.zero_le _)] at ht
              cases hs
              simp only at hk
              obtain rfl : k = 4 := by omega
              refine .term rfl (.inl rfl) rfl ?_
              rw [htl 3, if_pos]
              · exact ⟨by omega, by simp, ht⟩
              · cases line with
                | nil => simp [List.replicate]
                | cons x l =>
                  have : x ≠ ch ':' := by
                    rintro rfl
                    revert ht; simp; decide
                  have := beq_eq_false_iff_ne.2 this
                  simp only [List.takeWhile_cons, beq_self_eq_true, if_true, this]
                  rfl
            · rename_i ht
              rw [h5.term (Nat.zero_le _)] at ht
              refine colon (.inr ?_) hs
              rw [htl (3 + (line.takeWhile (· == ch ':')).length)]
              · rw [if_neg]
                rintro ⟨_, h6, h7⟩
                simp only [if_true] at h6
                have h8 : (line.takeWhile (· == ch ':')).length = 0 := by omega
                rw [h8] at h7
                exact ht h7
              · have := List.eq_replicate_iff.2 ⟨rfl, fun x (hx : x ∈ line.takeWhile (· == ch ':')) => by
                  have := List.all_takeWhile (p := (· == ch ':')) (l := line)
                  rw [List.all_eq_true] at this
                  exact beq_iff_eq.1 (this x hx)⟩
                simp only [List.takeWhile_cons, beq_self_eq_true, if_true]
                rw [Nat.add_comm 3, List.replicate_succ, List.replicate_succ, List.replicate_succ, ← this]
          · simp only [h4, if_false] at hs
            rw [h3.is (Nat.zero_le _) (by decide)] at h4
            have htw : line.takeWhile (· == ch ':') = [] := by
              cases line with
              | nil => rfl
              | cons x l =>
                have : x ≠ ch ':' := fun e => h4 (by rw [e]; rfl)
                have := beq_eq_false_iff_ne.2 this
                simp only [List.takeWhile_cons, this]
                rfl
            have htw2 : (ch ':' :: ch ':' :: line).takeWhile (· == ch ':') = List.replicate 2 (ch ':') := by
              simp only [List.takeWhile_cons, beq_self_eq_true, if_true, htw]
              rfl
            split at hs
            · rename_i ht
              rw [h3.term (Nat.zero_le _)] at ht
              cases hs
              simp only at hk
              obtain rfl : k = 3 := by omega
              refine .term rfl (.inl rfl) rfl ?_
              rw [htl 2 htw2, if_pos]
              exact ⟨by omega, by simp, ht⟩
            · rename_i ht
              rw [h3.term (Nat.zero_le _)] at ht
              refine colon (.inr ?_) hs
              rw [htl 2 htw2, if_neg]
              exact fun h => ht h.2.2
        · rename_i hcc
          refine colon (.inr ?_) hs
          have hle := (List.takeWhile_prefix (· == b) (l := line)).length_le
          have hall := List.eq_replicate_iff.2 ⟨rfl, fun x (hx : x ∈ line.takeWhile (· == b)) => by
            have := List.all_takeWhile (p := (· == b)) (l := line)
            rw [List.all_eq_true] at this
            exact beq_iff_eq.1 (this x hx)⟩
          rw [htl (1 + (line.takeWhile (· == b)).length)]
          · rw [if_neg]
            rintro ⟨_, h6, h7⟩
            by_cases hbc : b = ch ':'
            · have : line.takeWhile (· == b) = [] := by
                cases line with
                | nil => rfl
                | cons x l =>
                  have : x ≠ b := by
                    rintro rfl
                    exact hcc ⟨hbc, by simp [hbc]⟩
                  simp [this]
              rw [this] at h7
              exact ht h7
            · rw [if_neg hbc] at h6
              have h8 : (line.takeWhile (· == b)).length = 0 := by omega
              rw [h8] at h7
              exact ht h7
          · simp only [List.takeWhile_cons, beq_self_eq_true, if_true]
            rw [Nat.add_comm 1, List.replicate_succ, ← hall]
    · cases hp

theorem nextToken_first {pre line post : List UInt8} {plugins : List (List UInt8)} {b : UInt8} (h : Around pre (b :: line) post) {s : Step} {q k : Nat}
    (hs : nextToken (pre ++ (b :: line) ++ post) plugins pre.length = some (some s, q)) (hk : s.stop = pre.length + k) :
    First (atLineStart (pre ++ (b :: line) ++ post) pre.length) (b :: line) s.kind k := by
  have h0 : (pre ++ (b :: line) ++ post)[pre.length]? = some b := by simp
  unfold nextToken at hs
  split at hs
  · rename_i len c hd
    obtain ⟨h1, h2⟩ := delimiter_first h hd
    cases hs
    simp only at hk
    obtain rfl : k = len := by omega
    rw [h1]
    exact h2
  · rw [h0] at hs
    simp only at hs
    split at hs
    · rename_i K hl
      cases hs
      simp only [single] at hk ⊢
      obtain rfl : k = 1 := by omega
      exact .one rfl hl
    · rename_i K hl
      cases hs
      have hb : b ≠ 10 ∧ b ≠ 13 := h.line b (by simp)
      have := h.scan (f := (· == b)) (by simp [Ne.symm hb.1, Ne.symm hb.2]) (by simp)
      simp only [repeating, this] at hk ⊢
      obtain rfl : k = ((b :: line).takeWhile (· == b)).length := by omega
      exact .run rfl hl
    · rename_i hl
      simp only [Option.map_eq_some_iff] at hs
      obtain ⟨s', hs, he⟩ := hs
      injection he with he he2
      cases he
      unfold otherArm at hs
      by_cases hsp : isSpace b = true
      · rw [if_pos hsp] at hs
        cases hs
        have := h.scan (f := isSpace) (by decide) hsp
        simp only [repeating, this] at hk ⊢
        obtain rfl : k = ((b :: line).takeWhile isSpace).length := by omega
        exact .space rfl hsp
      rw [if_neg hsp] at hs
      by_cases hb : b = ch '&'
      · rw [if_pos hb] at hs
        cases hs
        exact .other rfl hl (by simpa using hsp) (by rw [hb]; decide) (by rw [hb]; decide) (by rw [hb]; decide) (by rw [hb]; decide) maybeEntity_other
      rw [if_neg hb] at hs
      by_cases hlt : b = ch '<'
      · rw [if_pos hlt] at hs
        subst hlt
        exact callout_first _ h hs hk
      rw [if_neg hlt] at hs
      by_cases hb : b = ch '{'
      · rw [if_pos hb] at hs
        exact .other rfl hl (by simpa using hsp) (by rw [hb]; decide) (by rw [hb]; decide) (by rw [hb]; decide) (by rw [hb]; decide) (maybeAttrRef_other hs)
      rw [if_neg hb, if_neg (fun hb => absurd hb.1 (h.line b (by simp)).2)] at hs
      by_cases hd : isDigit b = true
      · rw [if_pos hd] at hs
        cases hs
        have := h.scan (f := isDigit) (by decide) hd
        simp only [repeating, this] at hk ⊢
        obtain rfl : k = ((b :: line).takeWhile isDigit).length := by omega
        exact .digits rfl hd
      rw [if_neg hd] at hs
      by_cases hc : b = ch ';' ∨ b = ch ':'
      · rw [if_pos hc] at hs
        exact term_first h _ hc.symm hs hk
      rw [if_neg hc] at hs
      simp only [not_or] at hc
      have fin : ∀ {K}, K ∈ otherKinds → First (atLineStart (pre ++ (b :: line) ++ post) pre.length) (b :: line) K k := fun hK =>
        .other rfl hl (by simpa using hsp) (by simpa using hd) hlt hc.2 hc.1 hK
      generalize pre ++ (b :: line) ++ post = src at hs fin
      split at hs
      · cases hs; exact fin (by simp [codepoint, otherKinds])
      split at hs
      · split at hs
        · cases hs; exact fin (by simp [codepoint, otherKinds])
        · exact fin (word_other hs)
      split at hs
      · cases hs; exact fin (by simp [codepoint, otherKinds])
      · exact fin (word_other hs)

/-- The tokens are what the lexer makes of `line`, which is the rest of a line of some source; `bol`: it is the
whole line. -/
def LexAt (plugins : List (List UInt8)) (bol : Bool) (line : List UInt8) (toks : List Tok) : Prop :=
  ∃ pre post fuel q, Around pre line post ∧ (bol = true ↔ pre = [] ∨ pre.getLast? = some 10) ∧ lexLine (pre ++ line ++ post) plugins fuel pre.length = some (toks, q)

theorem LineOf.at {plugins : List (List UInt8)} {toks : List Tok} {line : List UInt8} (h : LineOf plugins toks line) : LexAt plugins true line toks := by
  obtain ⟨pre, post, q, h1, _, h2, h3⟩ := h.lexed
  exact ⟨pre, post, _, q, ⟨h2, h.clean⟩, ⟨fun _ => h1, fun _ => rfl⟩, h3⟩

theorem LexAt.clean {plugins : List (List UInt8)} {bol : Bool} {line : List UInt8} {toks : List Tok} (h : LexAt plugins bol line toks) : ∀ x ∈ line, x ≠ 10 ∧ x ≠ 13 := by
  obtain ⟨_, _, _, _, h, _⟩ := h
  exact h.line

theorem LexAt.nil {plugins : List (List UInt8)} {bol : Bool} {toks : List Tok} (h : LexAt plugins bol [] toks) : toks = [] := by
  obtain ⟨pre, post, fuel, q, ha, _, h⟩ := h
  cases fuel with
  | zero => simp [lexLine] at h
  | succ fuel =>
    unfold lexLine at h
    rw [List.append_nil, List.getElem?_append_right (Nat.le_refl _), Nat.sub_self, if_pos ha.post] at h
    cases h
    rfl

theorem atLineStart_iff {pre rest : List UInt8} : atLineStart (pre ++ rest) pre.length = true ↔ pre = [] ∨ pre.getLast? = some 10 := by
  unfold atLineStart
  rcases List.eq_nil_or_concat pre with rfl | ⟨l, x, rfl⟩
  · simp
  · simp

theorem LexAt.cons {plugins : List (List UInt8)} {bol : Bool} {b : UInt8} {line : List UInt8} {toks : List Tok} (h : LexAt plugins bol (b :: line) toks) :
    ∃ k K st sp ts, 0 < k ∧ k ≤ (b :: line).length ∧ First bol (b :: line) K k ∧ toks = ⟨K, st, sp, (b :: line).take k⟩ :: ts ∧
      LexAt plugins false ((b :: line).drop k) ts := by
  obtain ⟨pre, post, fuel, q, ha, hbol, h⟩ := h
  cases fuel with
  | zero => simp [lexLine] at h
  | succ fuel =>
    have hb : (pre ++ (b :: line) ++ post)[pre.length]? = some b := by simp
    obtain ⟨s, hs, hg⟩ := nextToken_good (plugins := plugins) (lt_length_of_getElem? hb)
    obtain ⟨k, hk0, hk, hst, hsp, hsl, hok⟩ := first_token ha.post ha.line hs hg
    have hf := nextToken_first ha hs hsp
    have hbol' : atLineStart (pre ++ (b :: line) ++ post) pre.length = bol := by
      rw [List.append_assoc]
      cases bol with
      | true => exact atLineStart_iff.2 (hbol.1 rfl)
      | false =>
        rw [← Bool.not_eq_true, atLineStart_iff, ← hbol]
        simp
    rw [hbol'] at hf
    unfold lexLine at h
    rw [if_neg (by
      rw [hb]
      have := ha.line b (by simp)
      intro h
      rcases eol_iff.1 h with h | h | h
      · cases h
      · exact this.1 (Option.some.inj h)
      · exact this.2 (Option.some.inj h)), hs] at h
    simp only [hsl, Option.bind_eq_bind, Option.bind_some, Option.bind_eq_some_iff] at h
    obtain ⟨⟨ts, q'⟩, h1, h2⟩ := h
    cases h2
    refine ⟨k, s.kind, s.start, s.stop, ts, hk0, hk, hf, rfl, pre ++ (b :: line).take k, post, fuel, q', ⟨ha.post, fun x hx => ha.line x (List.mem_of_mem_drop hx)⟩, ?_, ?_⟩
    · simp only [Bool.false_eq_true, false_iff, not_or]
      have hne : (b :: line).take k ≠ [] := by
        rw [show k = (k - 1) + 1 by omega]; simp
      refine ⟨by simp [hne], ?_⟩
      rw [List.getLast?_append, List.getLast?_eq_some_getLast hne, Option.some_or]
      intro e
      exact (ha.line _ (List.mem_of_mem_take (List.getLast_mem hne))).1 (Option.some.inj e)
    · have hl : (pre ++ (b :: line).take k).length = s.pos := by
        have := hg.stop
        rw [List.length_append, List.length_take]; omega
      rw [hl, List.append_assoc pre, List.take_append_drop]
      exact h1

theorem LexAt.text {plugins : List (List UInt8)} : ∀ (n : Nat) {bol : Bool} {line : List UInt8} {toks : List Tok}, line.length ≤ n → LexAt plugins bol line toks → toks.flatMap Tok.lexeme = line := by
  intro n
  induction n with
  | zero =>
    intro bol line toks hn h
    obtain rfl : line = [] := List.length_eq_zero_iff.1 (by omega)
    rw [h.nil]; rfl
  | succ n ih =>
    intro bol line toks hn h
    cases line with
    | nil => rw [h.nil]; rfl
    | cons b line =>
      obtain ⟨k, K, st, sp, ts, h0, h1, _, rfl, h2⟩ := h.cons
      have := ih (by rw [List.length_drop]; simp only [List.length_cons] at hn ⊢; omega) h2
      rw [List.flatMap_cons, this, List.take_append_drop]

end Verif.Lexer

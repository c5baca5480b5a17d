import Verif.Lemmas.Lexer
/-! Lemmas: no token goes beyond the end of its line, and which tokens are directives. -/
namespace Verif.Lexer
open TokenKind

/-- neither a line feed nor a carriage return, nor an opening bracket -/
def NoEol (x : UInt8) : Prop := x ≠ 10 ∧ x ≠ 13 ∧ x ≠ 91 ∧ x ≠ 34 ∧ x ≠ 44

instance : DecidablePred NoEol := fun x => inferInstanceAs (Decidable (x ≠ 10 ∧ x ≠ 13 ∧ x ≠ 91 ∧ x ≠ 34 ∧ x ≠ 44))

/-- there is no line end and no opening bracket between two positions -/
def Cl (src : List UInt8) (a b : Nat) : Prop := ∀ i, a ≤ i → i < b → ∃ x, src[i]? = some x ∧ NoEol x

theorem Cl.nil {src : List UInt8} {a b : Nat} (h : b ≤ a) : Cl src a b := fun i h1 h2 => by omega

theorem Cl.append {src : List UInt8} {a b c : Nat} (h1 : Cl src a b) (h2 : Cl src b c) : Cl src a c := by
  intro i ha hc
  by_cases h : i < b
  · exact h1 i ha h
  · exact h2 i (by omega) hc

theorem Cl.mono {src : List UInt8} {a b c : Nat} (h1 : Cl src a b) (h : c ≤ b) : Cl src a c := fun i ha hc => h1 i ha (by omega)

theorem Cl.one {src : List UInt8} {a : Nat} {x : UInt8} (h : src[a]? = some x) (hx : NoEol x) : Cl src a (a + 1) := by
  intro i h1 h2
  have : i = a := by omega
  subst this
  exact ⟨x, h, hx⟩

theorem Cl.snoc {src : List UInt8} {a b : Nat} {x : UInt8} (h1 : Cl src a b) (h : src[b]? = some x) (hx : NoEol x) : Cl src a (b + 1) :=
  h1.append (Cl.one h hx)

theorem Cl.scan {src : List UInt8} {f : UInt8 → Bool} (hf : ∀ x, f x = true → NoEol x) (a : Nat) : Cl src a (scan f src a) := by
  intro i h1 h2
  obtain ⟨x, hx, hfx⟩ := scan_all f src a i h1 h2
  exact ⟨x, hx, hf x hfx⟩

theorem Cl.peek {src l : List UInt8} {a n : Nat} (h : peekBytes src a n = some l) (hl : ∀ x ∈ l, NoEol x) : Cl src a (a + n) := by
  unfold peekBytes at h
  split at h
  · cases h
    intro i h1 h2
    have hi : i < src.length := by omega
    refine ⟨src[i], List.getElem?_eq_getElem hi, hl _ ?_⟩
    rw [List.mem_iff_getElem?]
    refine ⟨i - a, ?_⟩
    rw [List.getElem?_take_of_lt (by omega), List.getElem?_drop, show a + (i - a) = i by omega]
    exact List.getElem?_eq_getElem hi
  · cases h

/-- what is known about a token that starts with something else than a line end -/
structure Inside (src : List UInt8) (pos : Nat) (s : Step) : Prop where
  clean : Cl src (pos + 1) s.stop
  dir : s.kind = Directive → ∃ d ∈ directives, (src.drop pos).take (s.stop - pos) = d ++ [58, 58]

theorem single_inside {src : List UInt8} {pos : Nat} {k : TokenKind} (hk : k ≠ Directive) : Inside src pos (single k (pos + 1)) where
  clean := Cl.nil (by simp [single])
  dir := fun h => absurd h hk

theorem repeating_inside {src : List UInt8} {pos : Nat} {k : TokenKind} {f : UInt8 → Bool} (hk : k ≠ Directive) (hf : ∀ x, f x = true → NoEol x) :
    Inside src pos (repeating k f src (pos + 1)) where
  clean := by
    show Cl src (pos + 1) (scan f src (pos + 1))
    exact Cl.scan hf _
  dir := fun h => absurd h hk

theorem notBoundary_noEol {w : Bool} (x : UInt8) (h : (!wordBoundary w x) = true) : NoEol x := by
  refine ⟨?_, ?_, ?_, ?_, ?_⟩ <;> (rintro rfl; revert h; cases w <;> decide)

theorem domainChar_noEol (x : UInt8) (h : domainChar x = true) : NoEol x := by
  refine ⟨?_, ?_, ?_, ?_, ?_⟩ <;> (rintro rfl; revert h; decide)

theorem isDigit_noEol (x : UInt8) (h : isDigit x = true) : NoEol x := by
  refine ⟨?_, ?_, ?_, ?_, ?_⟩ <;> (rintro rfl; revert h; decide)

theorem isHex_noEol (x : UInt8) (h : isHex x = true) : NoEol x := by
  refine ⟨?_, ?_, ?_, ?_, ?_⟩ <;> (rintro rfl; revert h; decide)

theorem isAlnum_noEol (x : UInt8) (h : isAlnum x = true) : NoEol x := by
  refine ⟨?_, ?_, ?_, ?_, ?_⟩ <;> (rintro rfl; revert h; decide)

theorem isAlpha_noEol (x : UInt8) (h : isAlpha x = true) : NoEol x := by
  refine ⟨?_, ?_, ?_, ?_, ?_⟩ <;> (rintro rfl; revert h; decide)

theorem isSpace_noEol (x : UInt8) (h : isSpace x = true) : NoEol x := by
  refine ⟨?_, ?_, ?_, ?_, ?_⟩ <;> (rintro rfl; revert h; decide)

theorem atDelimiterLine_inside {src : List UInt8} {pos len : Nat} {c : UInt8} (h : atDelimiterLine src pos = some (len, c)) :
    Inside src pos ⟨.DelimiterLine, pos, pos + len, pos + len⟩ := by
  refine ⟨?_, fun h => by cases h⟩
  show Cl src (pos + 1) (pos + len)
  unfold atDelimiterLine at h
  cases hc : src[pos]? with
  | none => simp [hc] at h
  | some b =>
    simp only [hc] at h
    split at h
    · cases h
    rename_i hset
    have hb : NoEol b := by
      simp only [Bool.or_eq_true, Bool.not_eq_true', not_or, Bool.not_eq_false] at hset
      refine ⟨?_, ?_, ?_, ?_, ?_⟩ <;> (rintro rfl; revert hset; simp)
    have c1 : NoEol (ch '`') := by decide
    have c2 : NoEol (ch '-') := by decide
    split at h
    · rename_i h3
      cases h
      exact (Cl.one h3.2.1 c1).snoc h3.2.2.1 c1
    split at h
    · rename_i h3
      cases h
      exact Cl.one h3.2.1 c2
    split at h
    · rename_i h3
      cases h
      exact ((Cl.one h3.2.1 hb).snoc h3.2.2.1 hb).snoc h3.2.2.2.1 hb
    split at h
    · rename_i h3
      split at h
      · cases h
        have hge := scan_ge (· == ch '=') src (pos + 5)
        rw [show pos + (scan (· == ch '=') src (pos + 5) - pos) = scan (· == ch '=') src (pos + 5) by omega]
        refine ((((Cl.one h3.2.1 hb).snoc h3.2.2.1 hb).snoc h3.2.2.2.1 hb).snoc h3.2.2.2.2 hb).append (Cl.scan ?_ _)
        intro x hx
        have : x = ch '=' := by simpa using hx
        subst this; decide
      · cases h
    · cases h

theorem wordMacro_inside {src : List UInt8} {plugins : List (List UInt8)} {pos stop : Nat} {lexeme : List UInt8}
    (hw : Cl src (pos + 1) stop) (hc : src[stop]? = some (ch ':')) : Inside src pos (wordMacro src plugins pos stop lexeme) := by
  unfold wordMacro
  split
  · rename_i n hn
    unfold continuesUriScheme at hn
    refine ⟨?_, fun h => by cases h⟩
    show Cl src (pos + 1) (stop + n)
    split at hn
    · rename_i h
      cases hn
      simp only [Bool.and_eq_true, beq_iff_eq] at h
      exact hw.append (Cl.peek h.2 (by decide))
    · split at hn
      · rename_i h
        cases hn
        simp only [Bool.and_eq_true, beq_iff_eq] at h
        exact hw.append (Cl.peek h.2 (by decide))
      · cases hn
  · split
    · exact ⟨hw.snoc hc (by decide), fun h => by cases h⟩
    · split
      · exact ⟨hw.mono (Nat.sub_le _ _), fun h => by cases h⟩
      · split
        · exact ⟨hw.mono (Nat.sub_le _ _), fun h => by cases h⟩
        · exact ⟨hw, fun h => by cases h⟩

theorem wordEmail_inside {src : List UInt8} {pos stop : Nat} {s : Step} (hw : Cl src (pos + 1) stop) (hc : src[stop]? = some (ch '@'))
    (h : wordEmail src pos stop = some s) : Inside src pos s := by
  have hlen := lt_length_of_getElem? hc
  have hge := scan_ge domainChar src (stop + 1)
  have hle := scan_le domainChar src (stop + 1) hlen
  have hback : scan domainChar src (stop + 1) - (scan domainChar src (stop + 1) - (stop + 1)) = stop + 1 := by
    omega
  have hdl : ((src.drop (stop + 1)).take (scan domainChar src (stop + 1) - (stop + 1))).length
      = scan domainChar src (stop + 1) - (stop + 1) := by
    simp only [List.length_take, List.length_drop]; omega
  unfold wordEmail at h
  simp only at h
  rw [slice_some hge hle] at h
  simp only [Option.bind_eq_bind, Option.bind_some, Option.pure_def] at h
  have hat : Cl src (pos + 1) (stop + 1) := hw.snoc hc (by decide)
  split at h
  · cases h
    exact ⟨hat.append (Cl.scan domainChar_noEol _), fun h => by cases h⟩
  · rw [hdl, hback] at h
    cases h
    exact ⟨hat.append (Cl.scan notBoundary_noEol _), fun h => by cases h⟩

theorem word_inside {src : List UInt8} {plugins : List (List UInt8)} {pos : Nat} {b : UInt8} {s : Step} (hb : src[pos]? = some b)
    (h : word src plugins (pos + 1) = some s) : Inside src pos s := by
  have hlen := lt_length_of_getElem? hb
  unfold word at h
  have hge := scan_ge (fun b => !wordBoundary true b) src (pos + 1)
  have hle := scan_le (fun b => !wordBoundary true b) src (pos + 1) hlen
  have hw : Cl src (pos + 1) (scan (fun b => !wordBoundary true b) src (pos + 1)) := Cl.scan notBoundary_noEol _
  generalize scan (fun b => !wordBoundary true b) src (pos + 1) = stop at *
  have plain : Inside src pos ⟨.Word, pos, stop, stop⟩ := ⟨hw, fun h => by cases h⟩
  simp only [Nat.add_sub_cancel] at h
  rw [slice_some (by omega) hle] at h
  simp only [Option.bind_eq_bind, Option.bind_some, Option.pure_def] at h
  split at h
  · rename_i hc
    split at h
    · rename_i hd
      have h2 : stop + 2 < src.length := by omega
      rw [List.getElem?_eq_getElem h2] at h
      simp only [Option.bind_some] at h
      split at h
      · cases h; exact plain
      · cases h
        refine ⟨(hw.snoc hc (by decide)).snoc hd.1 (by decide), fun _ => ⟨_, List.contains_iff_mem.1 hd.2.1, ?_⟩⟩
        show (src.drop pos).take (stop + 2 - pos) = _
        rw [show stop + 2 - pos = (stop - pos) + 2 by omega, List.take_add, List.drop_drop, show pos + (stop - pos) = stop by omega]
        congr 1
        have h1 : stop + 1 < src.length := by omega
        rw [List.drop_eq_getElem_cons (by omega : stop < src.length), List.drop_eq_getElem_cons h1]
        have e1 : src[stop] = ch ':' := by
          rw [List.getElem?_eq_getElem (by omega)] at hc; exact Option.some.inj hc
        have e2 : src[stop + 1] = ch ':' := by
          have := hd.1
          rw [List.getElem?_eq_getElem h1] at this; exact Option.some.inj this
        rw [e1, e2]
        rfl
    · obtain ⟨t, ht⟩ := peekTerm_some (src := src) (pos := stop) (lt_length_of_getElem? hc)
      rw [ht] at h
      simp only [Option.bind_some] at h
      split at h
      · cases h; exact plain
      · cases h; exact wordMacro_inside hw hc
  · split at h
    · rename_i hc
      exact wordEmail_inside hw hc h
    · cases h; exact plain

theorem maybeTermDelimiter_inside {src : List UInt8} {pos : Nat} {c : UInt8} {ls : Bool} {s : Step} (hc : NoEol c)
    (h : maybeTermDelimiter src (pos + 1) c ls = some s) : Inside src pos s := by
  have hk : (if c = ch ':' then Colon else SemiColon) ≠ Directive := by split <;> simp
  unfold maybeTermDelimiter at h
  simp only [Option.bind_eq_bind, Option.pure_def] at h
  split at h
  · cases h; exact single_inside hk
  · rename_i hh
    have h1 : src[pos + 1]? = some c := by
      rcases Decidable.em (src[pos + 1]? = some c) with e | e
      · exact e
      · exact absurd (Or.inr e) hh
    have hl := lt_length_of_getElem? h1
    rw [sliceFrom_get (by omega)] at h
    simp only [Option.bind_some] at h
    split at h
    · cases h; exact ⟨Cl.one h1 hc, fun h => by cases h⟩
    · split at h
      · rename_i hcc
        obtain ⟨rfl, h2⟩ := hcc
        rw [List.getElem?_drop] at h2
        have h2' : src[pos + 2]? = some (ch ':') := by simpa using h2
        by_cases h3 : (src.drop (pos + 1 + 1))[1]? = some (ch ':')
        · simp only [h3, if_true] at h
          rw [List.getElem?_drop] at h3
          have h3' : src[pos + 3]? = some (ch ':') := by simpa using h3
          split at h
          · cases h
            refine ⟨?_, fun h => by cases h⟩
            exact ((Cl.one h1 hc).snoc h2' hc).snoc h3' hc
          · cases h; exact single_inside hk
        · simp only [h3, if_false] at h
          split at h
          · cases h
            refine ⟨?_, fun h => by cases h⟩
            exact (Cl.one h1 hc).snoc h2' hc
          · cases h; exact single_inside hk
      · cases h; exact single_inside hk

theorem attrRefLen_clean (l : List UInt8) (n m : Nat) (h : attrRefLen n l = some m) : n ≤ m ∧ ∀ i, i ≤ m - n → ∃ x, l[i]? = some x ∧ NoEol x := by
  induction l generalizing n with
  | nil => cases h
  | cons c l ih =>
    unfold attrRefLen at h
    split at h
    · rename_i hc
      split at h
      · cases h
      · cases h
        refine ⟨by omega, fun i hi => ⟨c, ?_, by subst hc; decide⟩⟩
        rw [show i = 0 by omega]; rfl
    · have step : NoEol c → attrRefLen (n + 1) l = some m → n ≤ m ∧ ∀ i, i ≤ m - n → ∃ x, (c :: l)[i]? = some x ∧ NoEol x := by
        intro hc h
        obtain ⟨h1, h2⟩ := ih (n + 1) h
        refine ⟨by omega, fun i hi => ?_⟩
        cases i with
        | zero => exact ⟨c, rfl, hc⟩
        | succ i => exact h2 i (by omega)
      split at h
      · rename_i hd
        exact step (by rcases hd with rfl | rfl <;> decide) h
      · split at h
        · rename_i hd
          exact step (isAlnum_noEol c hd) h
        · cases h

theorem maybeAttrRef_inside {src : List UInt8} {pos : Nat} {s : Step} (hl : pos < src.length) (h : maybeAttrRef src (pos + 1) = some s) : Inside src pos s := by
  unfold maybeAttrRef at h
  simp only [Option.bind_eq_bind, Option.pure_def] at h
  split at h
  · cases h; exact single_inside (by simp)
  · rw [sliceFrom_get (by omega)] at h
    simp only [Option.bind_some] at h
    split at h
    · rename_i len hlen
      cases h
      refine ⟨?_, fun h => by cases h⟩
      show Cl src (pos + 1) (pos + 1 + len + 1)
      obtain ⟨_, h2⟩ := attrRefLen_clean _ _ _ hlen
      intro i hi1 hi2
      obtain ⟨x, hx, hn⟩ := h2 (i - (pos + 1)) (by omega)
      rw [List.getElem?_drop, show pos + 1 + (i - (pos + 1)) = i by omega] at hx
      exact ⟨x, hx, hn⟩
    · cases h; exact single_inside (by simp)

theorem xmlCallout_inside {src : List UInt8} {pos : Nat} {d : UInt8} (h1 : src[pos + 1]? = some (ch '!')) (h2 : src[pos + 2]? = some (ch '-'))
    (h3 : src[pos + 3]? = some (ch '-')) (h4 : src[pos + 4]? = some d) (hd : isDigit d = true) :
    Inside src pos (xmlCallout (pos + 1) ((src.drop (pos + 1 + 1)).drop 3)) := by
  unfold xmlCallout
  simp only
  split
  · rename_i hn
    split
    · rename_i h5
      refine ⟨?_, fun h => by cases h⟩
      have hs : (((src.drop (pos + 1 + 1)).drop 3).takeWhile isDigit).length + (pos + 5) = scan isDigit src (pos + 5) := by
        rw [scan, List.drop_drop, show pos + 1 + 1 + 3 = pos + 5 by omega]; omega
      show Cl src (pos + 1) (pos + 1 + _)
      generalize hm : (((src.drop (pos + 1 + 1)).drop 3).takeWhile isDigit).length = n at *
      rw [List.drop_drop, List.getElem?_drop] at hn
      rw [List.drop_drop, List.getElem?_drop, List.getElem?_drop] at h5
      have c0 : Cl src (pos + 1) (scan isDigit src (pos + 5)) :=
        ((((Cl.one h1 (by decide)).snoc h2 (by decide)).snoc h3 (by decide)).snoc h4 (isDigit_noEol _ hd)).append (Cl.scan isDigit_noEol _)
      rw [← hs] at c0
      have c1 := c0.snoc (x := ch '-') (by rw [← hn]; congr 1; omega) (by decide)
      have c2 := c1.snoc (x := ch '-') (by rw [← h5.1]; congr 1; omega) (by decide)
      have c3 := c2.snoc (x := ch '>') (by rw [← h5.2]; congr 1; omega) (by decide)
      exact c3.mono (by omega)
    · exact single_inside (by simp)
  · exact single_inside (by simp)

theorem maybeCalloutNumber_inside {src : List UInt8} {pos : Nat} {s : Step} (h : maybeCalloutNumber src (pos + 1) = some s) : Inside src pos s := by
  have sg : Inside src pos (single LessThan (pos + 1)) := single_inside (by simp)
  unfold maybeCalloutNumber at h
  simp only [Option.bind_eq_bind, Option.pure_def] at h
  split at h
  · cases h; exact sg
  · rename_i d hd
    have hl := lt_length_of_getElem? hd
    split at h
    · rename_i hdig
      have hge := scan_ge isDigit src (pos + 1 + 1)
      split at h
      · rename_i he
        cases h
        refine ⟨?_, fun h => by cases h⟩
        exact ((Cl.one hd (isDigit_noEol _ hdig)).append (Cl.scan isDigit_noEol _)).snoc he (by decide)
      · rw [show scan isDigit src (pos + 1 + 1) - (scan isDigit src (pos + 1 + 1) - (pos + 1 - 1) - 1) = pos + 1 by
          omega] at h
        cases h; exact sg
    · split at h
      · rename_i hdot
        split at h
        · rename_i he
          cases h
          refine ⟨?_, fun h => by cases h⟩
          exact (Cl.one hd (by subst hdot; decide)).snoc he (by decide)
        · rw [show pos + 1 + 1 - (pos + 1 + 1 - (pos + 1 - 1) - 1) = pos + 1 by omega] at h
          cases h; exact sg
      · split at h
        · rename_i hbang
          subst hbang
          rw [sliceFrom_get (by omega)] at h
          simp only [Option.bind_some] at h
          split at h
          · rename_i hdash
            rw [List.getElem?_drop, List.getElem?_drop] at hdash
            have p2 : src[pos + 2]? = some (ch '-') := by simpa using hdash.1
            have p3 : src[pos + 3]? = some (ch '-') := by simpa using hdash.2
            split at h
            · cases h; exact sg
            · rename_i d2 hd2
              rw [List.getElem?_drop] at hd2
              have p4 : src[pos + 4]? = some d2 := by simpa using hd2
              split at h
              · rename_i hdot
                subst hdot
                split at h
                · rename_i h6
                  rw [List.getElem?_drop, List.getElem?_drop, List.getElem?_drop] at h6
                  cases h
                  refine ⟨?_, fun h => by cases h⟩
                  have q5 : src[pos + 5]? = some (ch '-') := by simpa using h6.1
                  have q6 : src[pos + 6]? = some (ch '-') := by simpa using h6.2.1
                  have q7 : src[pos + 7]? = some (ch '>') := by simpa using h6.2.2
                  exact ((((((Cl.one hd (by decide)).snoc p2 (by decide)).snoc p3 (by decide)).snoc p4 (by decide)).snoc q5 (by decide)).snoc q6 (by decide)).snoc q7 (by decide)
                · cases h; exact sg
              · split at h
                · rename_i hdig
                  cases h
                  exact xmlCallout_inside hd p2 p3 p4 hdig
                · cases h; exact sg
          · cases h; exact sg
        · cases h; exact sg

theorem finishEntity_inside {src : List UInt8} {pos n : Nat} {f : UInt8 → Bool} (hn : Cl src (pos + 1) (pos + 1 + n)) (hf : ∀ x, f x = true → NoEol x) :
    Inside src pos (finishEntity src (pos + 1) n f) := by
  unfold finishEntity
  simp only
  split
  · rename_i he
    split
    · exact single_inside (by simp)
    · refine ⟨?_, fun h => by cases h⟩
      exact (hn.append (Cl.scan hf _)).snoc he.2 (by decide)
  · exact single_inside (by simp)

theorem maybeEntity_inside {src : List UInt8} {pos : Nat} : Inside src pos (maybeEntity src (pos + 1)) := by
  unfold maybeEntity
  split
  · rename_i h
    exact finishEntity_inside (Cl.one h.1 (by decide)) isDigit_noEol
  · split
    · rename_i h
      exact finishEntity_inside ((Cl.one h.1 (by decide)).snoc h.2 (by decide)) isHex_noEol
    · split
      · rename_i h
        cases hx : src[pos + 1]? with
        | none => rw [hx] at h; simp at h
        | some x =>
          rw [hx] at h
          exact finishEntity_inside (Cl.one hx (isAlpha_noEol _ (by simpa using h))) isAlnum_noEol
      · exact single_inside (by simp)

theorem otherArm_inside {src : List UInt8} {plugins : List (List UInt8)} {pos : Nat} {b : UInt8} {ls : Bool} {s : Step}
    (hb : src[pos]? = some b) (hn : b ≠ 10 ∧ b ≠ 13) (h : otherArm src plugins (pos + 1) b ls = some s) : Inside src pos s := by
  have hlen := lt_length_of_getElem? hb
  unfold otherArm at h
  split at h
  · cases h; exact repeating_inside (by simp) isSpace_noEol
  split at h
  · cases h; exact maybeEntity_inside
  split at h
  · exact maybeCalloutNumber_inside h
  split at h
  · exact maybeAttrRef_inside hlen h
  split at h
  · rename_i hc; exact absurd hc.1 hn.2
  split at h
  · cases h; exact repeating_inside (by simp) isDigit_noEol
  split at h
  · rename_i hc
    exact maybeTermDelimiter_inside (by rcases hc with rfl | rfl <;> decide) h
  split at h
  · rename_i hc
    cases h
    refine ⟨?_, fun h => by cases h⟩
    exact Cl.one hc.2 (by decide)
  split at h
  · split at h
    · rename_i hp
      cases h
      refine ⟨?_, fun h => by cases h⟩
      show Cl src (pos + 1) (pos + 1 + 2)
      cases hq : peekBytes src (pos + 1) 2 with
      | none => rw [hq] at hp; simp [punct3] at hp
      | some l =>
        rw [hq] at hp
        refine Cl.peek hq ?_
        have hm := List.contains_iff_mem.1 hp
        simp only [Option.getD_some] at hm
        have : ∀ p ∈ punct3, ∀ x ∈ p.drop 1, NoEol x := by decide
        exact this _ hm
    · exact word_inside hb h
  split at h
  · rename_i hc
    cases h
    refine ⟨?_, fun h => by cases h⟩
    exact Cl.peek hc.2 (by decide)
  · exact word_inside hb h

theorem simpleTable_dir {b : UInt8} {x : Simple} (h : simpleTable.lookup b = some x) : x ≠ .one Directive ∧ x ≠ .run Directive := by
  have key : ∀ (l : List (UInt8 × Simple)), (∀ p ∈ l, p.2 ≠ .one Directive ∧ p.2 ≠ .run Directive) → l.lookup b = some x → x ≠ .one Directive ∧ x ≠ .run Directive := by
    intro l
    induction l with
    | nil => intro _ h; cases h
    | cons p l ih =>
      intro ha h
      obtain ⟨k, v⟩ := p
      simp only [List.lookup_cons] at h
      by_cases hk : b = k
      · subst hk
        simp at h
        subst h
        exact ha (b, v) (by simp)
      · rw [show (b == k) = false by simpa using hk] at h
        exact ih (fun q hq => ha q (by simp [hq])) h
  refine key simpleTable ?_ h
  simp [simpleTable]

/-- A token that does not start with a line end has none in it, and opening brackets are tokens. -/
theorem nextToken_inside {src : List UInt8} {plugins : List (List UInt8)} {pos p : Nat} {b : UInt8} {s : Step}
    (hb : src[pos]? = some b) (hn : b ≠ 10 ∧ b ≠ 13) (h : nextToken src plugins pos = some (some s, p)) :
    Inside src pos s ∧ (b = 91 → s.stop = pos + 1) := by
  unfold nextToken at h
  simp only at h
  split at h
  · rename_i len c hd
    cases h
    refine ⟨atDelimiterLine_inside hd, ?_⟩
    rintro rfl
    simp [atDelimiterLine, hb] at hd
  · rw [hb] at h
    simp only at h
    split at h
    · rename_i k hk
      cases h
      exact ⟨single_inside (fun e => (simpleTable_dir hk).1 (by rw [e])), fun _ => rfl⟩
    · rename_i k hk
      cases h
      have h91 : b ≠ 91 := by
        rintro rfl
        have : simpleTable.lookup 91 = some (.one OpenBracket) := by rfl
        rw [this] at hk
        cases hk
      have h34 : b ≠ 34 := by
        rintro rfl
        have : simpleTable.lookup 34 = some (.one DoubleQuote) := by rfl
        rw [this] at hk
        cases hk
      have h44 : b ≠ 44 := by
        rintro rfl
        have : simpleTable.lookup 44 = some (.one Comma) := by rfl
        rw [this] at hk
        cases hk
      refine ⟨repeating_inside (fun e => (simpleTable_dir hk).2 (by rw [e])) ?_, fun e => absurd e h91⟩
      intro x hx
      have : x = b := by simpa using hx
      subst this; exact ⟨hn.1, hn.2, h91, h34, h44⟩
    · rename_i hk
      obtain ⟨s', hs', e⟩ := Option.map_eq_some_iff.1 h
      cases e
      refine ⟨otherArm_inside hb hn hs', ?_⟩
      rintro rfl
      have : simpleTable.lookup 91 = some (.one OpenBracket) := by rfl
      rw [this] at hk
      cases hk

end Verif.Lexer

import Verif.Lemmas.ListsTerm
namespace Verif.Lists
set_option linter.unusedSimpArgs false
set_option linter.unusedVariables false

/-- what is left has no list continuation in a delimited block -/
def Clean (s : St) : Prop := noPlusInside s.inDelim s.chunks.flatten

theorem ok_cons {b : Bool} {l : Ln} {L : List Ln} (hl : l ≠ .delim) (h : noPlusInside b (l :: L)) : noPlusInside b L := by
  cases l
  case plus => exact h.2
  case delim => exact absurd rfl hl
  all_goals exact h

theorem ok_text {b : Bool} {t : Text} {L : List Ln} : noPlusInside b (.text t :: L) ↔ noPlusInside b L := by
  simp [noPlusInside]

theorem ok_drop {b : Bool} {A L : List Ln} (hl : ∀ l ∈ A, l ≠ .delim) (h : noPlusInside b (A ++ L)) : noPlusInside b L := by
  induction A with
  | nil => exact h
  | cons a as ih => exact ih (fun l hl' => hl l (by simp [hl'])) (ok_cons (hl a (by simp)) h)

theorem ok_dropWhile {b : Bool} {A L : List Ln} {p : Ln → Bool} (hp : p .delim = false) (h : noPlusInside b (A ++ L)) :
    noPlusInside b (A.dropWhile p ++ L) := by
  rw [← List.takeWhile_append_dropWhile (p := p) (l := A), List.append_assoc] at h
  refine ok_drop ?_ h
  intro l hl he
  subst he
  have : ∀ (A : List Ln) l, l ∈ A.takeWhile p → p l = true := by
    intro A
    induction A with
    | nil => simp
    | cons a as ih =>
      intro l hm
      rw [List.takeWhile_cons] at hm
      split at hm
      · rcases List.mem_cons.mp hm with rfl | hm
        · assumption
        · exact ih _ hm
      · simp at hm
  rw [this _ _ hl] at hp; cases hp

theorem restore_flatten (s : St) (ls : List Ln) : (s.restore ls).chunks.flatten = ls ++ s.chunks.flatten := by
  cases ls <;> simp [St.restore]

theorem clean_restore (s : St) (ls : List Ln) : Clean (s.restore ls) ↔ noPlusInside s.inDelim (ls ++ s.chunks.flatten) := by
  simp [Clean, restore_flatten]

theorem clean_chunks {s : St} {ls : List Ln} {rest : List (List Ln)} (hc : s.chunks = ls :: rest) :
    Clean s ↔ noPlusInside s.inDelim (ls ++ rest.flatten) := by
  simp [Clean, hc]

theorem ok_withRest {b : Bool} {m : Marker} {t : Text} {r : Option Text} {tl L : List Ln}
    (h : noPlusInside b ((.term m t r :: tl) ++ L)) : noPlusInside b (withRest r tl ++ L) := by
  cases r <;> simpa [withRest, noPlusInside] using h

theorem gatherTerms_clean (m : Marker) : ∀ n s ts s', gatherTerms m n s = some (ts, s') → Clean s → Clean s' := by
  intro n
  induction n with
  | zero => intro s ts s' h; simp [gatherTerms] at h
  | succ n ih =>
    intro s ts s' h hs
    unfold gatherTerms at h
    split at h
    · rename_i m' t r tl rest hc
      split at h
      · simp only [Option.bind_eq_some_iff, Option.some.injEq, Prod.exists, Prod.mk.injEq] at h
        obtain ⟨ts', s'', hg, rfl, rfl⟩ := h
        refine ih _ _ _ hg ?_
        rw [clean_restore]
        rw [clean_chunks hc] at hs
        exact ok_withRest hs
      · simp only [Option.some.injEq, Prod.mk.injEq] at h
        obtain ⟨rfl, rfl⟩ := h; exact hs
    · simp only [Option.some.injEq, Prod.mk.injEq] at h
      obtain ⟨rfl, rfl⟩ := h; exact hs

theorem gatherTerms_texts (m : Marker) : ∀ n s ts s', gatherTerms m n s = some (ts, s') →
    ts ++ chTexts s'.chunks = chTexts s.chunks := by
  intro n
  induction n with
  | zero => intro s ts s' h; simp [gatherTerms] at h
  | succ n ih =>
    intro s ts s' h
    unfold gatherTerms at h
    split at h
    · rename_i m' t r tl rest hc
      split at h
      · simp only [Option.bind_eq_some_iff, Option.some.injEq, Prod.exists, Prod.mk.injEq] at h
        obtain ⟨ts', s'', hg, rfl, rfl⟩ := h
        have := ih _ _ _ hg
        rw [restore_texts] at this
        rw [List.cons_append, this, hc]
        cases r <;> simp [withRest, Ln.texts]
      · simp only [Option.some.injEq, Prod.mk.injEq] at h
        obtain ⟨rfl, rfl⟩ := h; simp
    · simp only [Option.some.injEq, Prod.mk.injEq] at h
      obtain ⟨rfl, rfl⟩ := h; simp

theorem extraTerms_texts (m : Marker) (n : Nat) (s : St) (r : Option Text) (tl : List Ln) (ts : List Text) (s' : St)
    (h : extraTerms m n s r tl = some (ts, s')) : ts ++ chTexts s'.chunks = r.toList ++ lnsTexts tl ++ chTexts s.chunks := by
  unfold extraTerms at h
  cases r with
  | none =>
    have := gatherTerms_texts _ _ _ _ _ h
    rw [restore_texts] at this
    simpa using this
  | some r =>
    simp only [Option.some.injEq, Prod.mk.injEq] at h
    obtain ⟨rfl, rfl⟩ := h
    rw [restore_texts]
    simp [Ln.texts]

theorem extraTerms_clean (m : Marker) (n : Nat) (s : St) (r : Option Text) (tl : List Ln) (ts : List Text) (s' : St)
    (h : extraTerms m n s r tl = some (ts, s')) (hs : noPlusInside s.inDelim (withRest r tl ++ s.chunks.flatten)) : Clean s' := by
  unfold extraTerms at h
  cases r with
  | none => exact gatherTerms_clean _ _ _ _ _ h ((clean_restore _ _).mpr hs)
  | some rr =>
    simp only [Option.some.injEq, Prod.mk.injEq] at h
    obtain ⟨_, rfl⟩ := h
    exact (clean_restore _ _).mpr hs

/-- why there is no block: the input is at its end, at the closing delimiter, or at a list continuation -/
def Stopped (s s' : St) : Prop :=
  s'.chunks = [] ∨ (s.inDelim = true ∧ ∃ tl rest, s'.chunks = (.delim :: tl) :: rest) ∨
    ((s.conts = true ∨ s.inDescription = true) ∧ ∃ tl rest, s'.chunks = (.plus :: tl) :: rest)

structure Lossless (n : Nat) : Prop where
  block : ∀ s r s', Clean s → parseBlock n s = some (r, s') →
    descTexts r ++ chTexts s'.chunks = chTexts s.chunks ∧ Clean s' ∧ (r = none → Stopped s s')
  delimited : ∀ s r s', s.inDelim = false → noPlusInside true s.chunks.flatten → parseDelimited n s = some (r, s') →
    descTexts r ++ chTexts s'.chunks = chTexts s.chunks ∧ Clean s' ∧ r ≠ none
  blocks : ∀ s r s', Clean s → parseBlocks n s = some (r, s') →
    blocksTexts r ++ chTexts s'.chunks = chTexts s.chunks ∧ Clean s' ∧ Stopped s s'
  list : ∀ s m ls r s', Clean (s.restore ls) → parseList n s m ls = some (r, s') →
    descTexts r ++ chTexts s'.chunks = lnsTexts ls ++ chTexts s.chunks ∧ Clean s' ∧ r ≠ none
  items : ∀ s r s', Clean s → parseItems n s = some (r, s') →
    itemsTexts r ++ chTexts s'.chunks = chTexts s.chunks ∧ Clean s'
  item : ∀ s r s', Clean s → parseItem n s = some (r, s') →
    (match r with | none => [] | some i => i.texts) ++ chTexts s'.chunks = chTexts s.chunks ∧ Clean s'
  itemBlocks : ∀ s ls r s', Clean (s.restore ls) → itemBlocks n s ls = some (r, s') →
    blocksTexts r ++ chTexts s'.chunks = lnsTexts ls ++ chTexts s.chunks ∧ Clean s'
  nested : ∀ s r s', Clean s → nestedList n s = some (r, s') →
    blocksTexts r ++ chTexts s'.chunks = chTexts s.chunks ∧ Clean s'
  conts : ∀ s r s', Clean s → contBlocks n s = some (r, s') →
    blocksTexts r ++ chTexts s'.chunks = chTexts s.chunks ∧ Clean s'
  desc : ∀ s r s', Clean s → descBlocks n s = some (r, s') →
    blocksTexts r ++ chTexts s'.chunks = chTexts s.chunks ∧ Clean s'

theorem toList_texts (b : Option Block) : blocksTexts b.toList = descTexts b := by
  cases b <;> simp [blocksTexts, descTexts]

theorem blocksTexts_append (a b : List Block) : blocksTexts (a ++ b) = blocksTexts a ++ blocksTexts b := by
  induction a with
  | nil => simp [blocksTexts]
  | cons x xs ih => simp [blocksTexts, ih]

theorem lossless_succ {n : Nat} (ih : Lossless n) : Lossless (n + 1) where
  block := by
    intro s r s' hs h
    unfold parseBlock at h
    split at h
    · rename_i hc
      simp only [Option.some.injEq, Prod.mk.injEq] at h
      obtain ⟨rfl, rfl⟩ := h; exact ⟨by simp [descTexts], hs, fun _ => .inl hc⟩
    · rename_i lines rest hc
      have hat := attrs_texts lines
      have hs0 := (clean_chunks hc).mp hs
      have hs2 : noPlusInside s.inDelim (lines.dropWhile Ln.isAttrs ++ rest.flatten) := ok_dropWhile (by rfl) hs0
      have hct : chTexts s.chunks = lnsTexts (lines.dropWhile Ln.isAttrs) ++ chTexts rest := by
        rw [hat, hc]; simp
      simp only at h
      split at h
      · rename_i heq
        rw [heq] at hs2
        obtain ⟨h1, h2, h3⟩ := ih.block _ _ _ (show Clean (St.problem { s with chunks := rest }) from hs2) h
        rw [h1, hct, heq]
        exact ⟨rfl, h2, h3⟩
      · rename_i tl heq
        rw [heq] at hct hs2
        split at h
        · rename_i hd
          simp only [Option.some.injEq, Prod.mk.injEq] at h
          obtain ⟨rfl, rfl⟩ := h
          rw [restore_texts, hct]
          exact ⟨by simp [descTexts], (clean_restore _ _).mpr hs2, fun _ => .inr (.inl ⟨hd, tl, rest, by simp [St.restore]⟩)⟩
        · rename_i hd
          have hd : s.inDelim = false := by simpa using hd
          rw [hd] at hs2
          obtain ⟨h2, h3, h4⟩ := ih.delimited _ _ _ (by simpa using hd) (by rw [restore_flatten]; simpa [noPlusInside] using hs2) h
          rw [h2, restore_texts, hct]
          exact ⟨by simp [Ln.texts], h3, fun h => absurd h h4⟩
      · rename_i m t tl heq
        rw [heq] at hct hs2
        obtain ⟨h1, h2, h3⟩ := ih.list _ _ _ _ _ ((clean_restore { s with chunks := rest } _).mpr hs2) h
        rw [h1, hct]
        exact ⟨rfl, h2, fun h => absurd h h3⟩
      · rename_i m t r' tl heq
        rw [heq] at hct hs2
        obtain ⟨h1, h2, h3⟩ := ih.list _ _ _ _ _ ((clean_restore { s with chunks := rest } _).mpr hs2) h
        rw [h1, hct]
        exact ⟨rfl, h2, fun h => absurd h h3⟩
      · rename_i hn1 hn2 hn3 hn4
        simp only [Option.some.injEq, Prod.mk.injEq] at h
        obtain ⟨rfl, rfl⟩ := h
        rw [restore_texts, hct]
        have hsp := split_texts (fun l => !s.stopsAt l) (lines.dropWhile Ln.isAttrs)
        refine ⟨?_, ?_, ?_⟩
        · rw [← hsp]
          cases htw : List.takeWhile (fun l => !s.stopsAt l) (lines.dropWhile Ln.isAttrs) with
          | nil => simp [descTexts]
          | cons a as => simp [descTexts, Block.texts, lnsTexts]
        · exact (clean_restore _ _).mpr (ok_dropWhile (by simp [St.stopsAt]) hs2)
        · intro hr
          cases hd : lines.dropWhile Ln.isAttrs with
          | nil => exact absurd hd hn1
          | cons l tl =>
            rw [hd] at hr
            have hst : s.stopsAt l = true := by
              cases hst : s.stopsAt l with
              | true => rfl
              | false => simp [List.takeWhile_cons, hst] at hr
            have hna : l.isAttrs = false := by
              have := List.head_dropWhile_not (p := Ln.isAttrs) (l := lines) (by rw [hd]; simp)
              simpa [hd] using this
            have hdw : List.dropWhile (fun l => !s.stopsAt l) (l :: tl) = l :: tl := by
              simp [List.dropWhile_cons, hst]
            refine .inr (.inr ?_)
            have hl : l = .plus ∧ (s.conts = true ∨ s.inDescription = true) := by
              cases l
              case plus => simp [St.stopsAt, Ln.isTerm, Ln.isAttrs] at hst; exact ⟨rfl, hst.symm⟩
              case delim => exact absurd hd (hn2 _)
              case item => exact absurd hd (hn3 _ _ _)
              case term => exact absurd hd (hn4 _ _ _ _)
              all_goals simp [St.stopsAt, Ln.isTerm, Ln.isAttrs] at hst hna
            obtain ⟨rfl, hc'⟩ := hl
            exact ⟨hc', tl, rest, by rw [hdw]; simp [St.restore]⟩
  delimited := by
    intro s r s' hin hs h
    unfold parseDelimited at h
    simp only [Option.bind_eq_some_iff, Option.some.injEq, Prod.exists, Prod.mk.injEq] at h
    obtain ⟨bs, s2, hb, rfl, rfl⟩ := h
    obtain ⟨h1, h3, h2⟩ := ih.blocks { s with inDelim := true } bs s2 hs hb
    have hk := (good n).blocks _ _ _ hb
    have hin2 : s2.inDelim = true := hk.inDelim
    unfold Clean at h3
    rw [hin2] at h3
    have h1' : blocksTexts bs ++ chTexts s2.chunks = chTexts s.chunks := h1
    unfold closeDelimited
    rcases h2 with h2 | ⟨_, tl, rest, h2⟩ | ⟨_, tl, rest, h2⟩
    · refine ⟨?_, ?_, by simp⟩
      · rw [← h1']; simp [h2, descTexts, Block.texts]
      · simp [Clean, h2, noPlusInside]
    · simp only [h2]
      refine ⟨?_, ?_, by simp⟩
      · rw [← h1']
        simp only [descTexts, Block.texts, List.append_cancel_left_eq]
        rw [restore_texts, h2]; simp [Ln.texts]
      · unfold Clean
        simp only [hin]
        rw [restore_flatten]
        rw [h2] at h3
        simpa [noPlusInside] using h3
    · rw [h2] at h3
      simp [noPlusInside] at h3
  blocks := by
    intro s r s' hs h
    unfold parseBlocks at h
    simp only [Option.bind_eq_some_iff, Prod.exists] at h
    obtain ⟨b, s2, hb, h⟩ := h
    obtain ⟨h1, hs2, h2⟩ := ih.block _ _ _ hs hb
    have hk := ((good n).block _ _ _ hb).1
    cases b with
    | none =>
      simp only [Option.some.injEq, Prod.mk.injEq] at h
      obtain ⟨rfl, rfl⟩ := h
      exact ⟨by simpa [blocksTexts, descTexts] using h1, hs2, h2 rfl⟩
    | some b =>
      simp only [Option.bind_eq_some_iff, Option.some.injEq, Prod.exists, Prod.mk.injEq] at h
      obtain ⟨bs, s3, hb2, rfl, rfl⟩ := h
      obtain ⟨h3, hs3, h4⟩ := ih.blocks _ _ _ hs2 hb2
      refine ⟨?_, hs3, ?_⟩
      · simp only [blocksTexts, List.append_assoc, h3]; simpa [descTexts] using h1
      · unfold Stopped at *
        rw [hk.inDelim] at h4
        rcases h4 with h4 | h4 | ⟨h4, h5⟩
        · exact .inl h4
        · exact .inr (.inl h4)
        · refine .inr (.inr ⟨?_, h5⟩)
          rcases h4 with h4 | h4
          · left
            cases hcs : s.conts with
            | true => rfl
            | false => rw [hk.conts hcs] at h4; cases h4
          · right
            simpa [St.inDescription, hk.inDelim, hk.stack] using h4
  list := by
    intro s m ls r s' hs h
    unfold parseList at h
    simp only [Option.bind_eq_some_iff, Option.some.injEq, Prod.exists, Prod.mk.injEq] at h
    obtain ⟨is, s3, hi, rfl, rfl⟩ := h
    obtain ⟨h1, h2⟩ := ih.items { s.restore ls with stack := m :: (s.restore ls).stack } is s3 hs hi
    refine ⟨?_, h2, by simp⟩
    simp only [descTexts, Block.texts]
    rw [h1, restore_texts]
  items := by
    intro s r s' hs h
    unfold parseItems at h
    simp only [Option.bind_eq_some_iff, Prod.exists] at h
    obtain ⟨i, s2, hi, h⟩ := h
    obtain ⟨h1, hs2⟩ := ih.item _ _ _ hs hi
    cases i with
    | none =>
      simp only [Option.some.injEq, Prod.mk.injEq] at h
      obtain ⟨rfl, rfl⟩ := h
      exact ⟨by simpa [itemsTexts] using h1, hs2⟩
    | some i =>
      simp only [Option.bind_eq_some_iff, Option.some.injEq, Prod.exists, Prod.mk.injEq] at h
      obtain ⟨is, s3, hi2, rfl, rfl⟩ := h
      obtain ⟨h3, h4⟩ := ih.items _ _ _ hs2 hi2
      simp only [itemsTexts, List.append_assoc, h3]
      exact ⟨h1, h4⟩
  item := by
    intro s r s' hs h
    unfold parseItem at h
    split at h
    · rename_i m t tl rest hc
      split at h
      · simp only [Option.bind_eq_some_iff, Option.some.injEq, Prod.exists, Prod.mk.injEq] at h
        obtain ⟨bs, s2, hb, rfl, rfl⟩ := h
        have hs1 : Clean (St.restore { s with chunks := rest } (tl.dropWhile Ln.continuesPrinciple)) := by
          rw [clean_restore]
          rw [clean_chunks hc] at hs
          exact ok_dropWhile (by rfl) (ok_cons (by simp) hs)
        obtain ⟨h1, h2⟩ := ih.itemBlocks _ _ _ _ hs1 hb
        have hsp := split_texts Ln.continuesPrinciple tl
        refine ⟨?_, h2⟩
        simp only [Item.texts, descTexts, List.append_nil, List.cons_append, List.append_assoc, h1, hc, chTexts_cons,
          lnsTexts_cons, Ln.texts, List.nil_append]
        congr 1
        rw [← hsp]
        simp [lnsTexts]
      · simp only [Option.some.injEq, Prod.mk.injEq] at h
        obtain ⟨rfl, rfl⟩ := h; exact ⟨by simp, hs⟩
    · rename_i m t r' tl rest hc
      split at h
      · simp only [Option.bind_eq_some_iff, Option.some.injEq, Prod.exists, Prod.mk.injEq] at h
        obtain ⟨ex, s2, he, d, s3, hd, bs, s4, hb, rfl, rfl⟩ := h
        have hs2 : Clean s2 := extraTerms_clean _ _ _ _ _ _ _ he (ok_withRest ((clean_chunks hc).mp hs))
        have h1 := extraTerms_texts _ _ _ _ _ _ _ he
        obtain ⟨h2, hs3, _⟩ := ih.block _ _ _ hs2 hd
        obtain ⟨h3, hs4⟩ := ih.desc _ _ _ hs3 hb
        refine ⟨?_, hs4⟩
        simp only [Item.texts, List.flatMap_nil, List.cons_append, List.nil_append, List.append_assoc, h3, h2, h1, hc, chTexts_cons,
          lnsTexts_cons, Ln.texts]
      · simp only [Option.some.injEq, Prod.mk.injEq] at h
        obtain ⟨rfl, rfl⟩ := h; exact ⟨by simp, hs⟩
    · simp only [Option.some.injEq, Prod.mk.injEq] at h
      obtain ⟨rfl, rfl⟩ := h; exact ⟨by simp, hs⟩
  itemBlocks := by
    intro s lines r s' hs h
    unfold itemBlocks at h
    split at h
    · simp only [Option.bind_eq_some_iff, Option.some.injEq, Prod.exists, Prod.mk.injEq] at h
      obtain ⟨b, s2, hb, rfl, rfl⟩ := h
      obtain ⟨h1, h2, _⟩ := ih.block _ _ _ hs hb
      rw [toList_texts, h1, restore_texts]
      exact ⟨rfl, h2⟩
    · split at h
      · obtain ⟨h1, h2⟩ := ih.conts _ _ _ hs h
        rw [h1, restore_texts]
        exact ⟨rfl, h2⟩
      · split at h
        · simp only [Option.some.injEq, Prod.mk.injEq] at h
          obtain ⟨rfl, rfl⟩ := h
          rw [restore_texts]; exact ⟨by simp [blocksTexts], hs⟩
        · rename_i hl
          have : lines = [] := by simpa using hl
          subst this
          obtain ⟨h1, h2⟩ := ih.nested _ _ _ (by simpa [St.restore] using hs) h
          exact ⟨by simpa using h1, h2⟩
  nested := by
    intro s r s' hs h
    unfold nestedList at h
    split at h
    · simp only [Option.some.injEq, Prod.mk.injEq] at h
      obtain ⟨rfl, rfl⟩ := h; exact ⟨by simp [blocksTexts], hs⟩
    · rename_i next rest hc
      split at h
      · simp only [Option.some.injEq, Prod.mk.injEq] at h
        obtain ⟨rfl, rfl⟩ := h; exact ⟨by simp [blocksTexts], hs⟩
      · rename_i m hm
        split at h
        · simp only [Option.bind_eq_some_iff, Option.some.injEq, Prod.exists, Prod.mk.injEq] at h
          obtain ⟨b, s2, hb, rfl, rfl⟩ := h
          obtain ⟨l, tl, rfl, hm'⟩ := firstMarker_eq hm
          have hr : St.restore { s with chunks := rest } (l :: tl) = s := by
            simp [St.restore, ← hc]
          obtain ⟨h1, h2, _⟩ := ih.list _ _ _ _ _ (by rw [hr]; exact hs) hb
          rw [toList_texts, h1, hc]; exact ⟨by simp, h2⟩
        · simp only [Option.some.injEq, Prod.mk.injEq] at h
          obtain ⟨rfl, rfl⟩ := h; exact ⟨by simp [blocksTexts], hs⟩
  conts := by
    intro s r s' hs h
    unfold contBlocks at h
    split at h
    · rename_i l tl rest hc
      have h3 : Clean (St.restore { s with chunks := rest } (l :: tl)) := by
        rw [clean_restore]
        exact ok_cons (by simp) ((clean_chunks hc).mp hs)
      simp only at h
      split at h
      · simp only [Option.some.injEq, Prod.mk.injEq] at h
        obtain ⟨rfl, rfl⟩ := h
        rw [problem_chunks, restore_texts, hc]
        exact ⟨by simp [blocksTexts, Ln.texts], h3⟩
      · simp only [Option.bind_eq_some_iff, Option.some.injEq, Prod.exists, Prod.mk.injEq] at h
        obtain ⟨b, s2, hb, bs, s3, hbs, rfl, rfl⟩ := h
        obtain ⟨h1, h4, _⟩ := ih.block { St.restore { s with chunks := rest } (l :: tl) with conts := true } b s2 h3 hb
        obtain ⟨h2, h5⟩ := ih.conts { s2 with conts := false } bs s3 h4 hbs
        rw [blocksTexts_append, toList_texts, List.append_assoc, h2, h1]
        rw [restore_texts, hc]; exact ⟨by simp [Ln.texts], h5⟩
    · exact ih.nested _ _ _ hs h
  desc := by
    intro s r s' hs h
    unfold descBlocks at h
    split at h
    · simp only [Option.some.injEq, Prod.mk.injEq] at h
      obtain ⟨rfl, rfl⟩ := h; exact ⟨by simp [blocksTexts], hs⟩
    · split at h
      · exact ih.conts _ _ _ hs h
      · split at h
        · simp only [Option.bind_eq_some_iff, Option.some.injEq, Prod.exists, Prod.mk.injEq] at h
          obtain ⟨b, s2, hb, rfl, rfl⟩ := h
          obtain ⟨h1, h2, _⟩ := ih.block _ _ _ hs hb
          rw [toList_texts]; exact ⟨h1, h2⟩
        · simp only [Option.some.injEq, Prod.mk.injEq] at h
          obtain ⟨rfl, rfl⟩ := h; exact ⟨by simp [blocksTexts], hs⟩

theorem lossless (n : Nat) : Lossless n := by
  induction n with
  | zero =>
    constructor <;> intros <;> simp_all [parseBlock, parseDelimited, parseBlocks, parseList, parseItems, parseItem, itemBlocks, nestedList, contBlocks, descBlocks]
  | succ n ih => exact lossless_succ ih

end Verif.Lists

import Verif.Model.InlineText
/-! Lemmas: tokens of lines with email addresses. -/
namespace Verif.Inlines
open Verif TokenKind

theorem push_other {l : List Tok} {t : Tok} (h : t.kind ≠ MaybeEmail) : pushTok l t = l ++ [t] := if_neg h

theorem fold_other : ∀ {ts l : List Tok}, (∀ t ∈ ts, t.kind ≠ MaybeEmail) → ts.foldl pushTok l = l ++ ts := by
  intro ts
  induction ts with
  | nil => intro l _; simp
  | cons t ts ih =>
    intro l h
    rw [List.foldl_cons, push_other (h t (by simp)), ih (fun u hu => h u (by simp [hu]))]
    simp

theorem finishLine_other {ts : List Tok} (h : ∀ t ∈ ts, t.kind ≠ MaybeEmail) : finishLine ts = ts := by
  rw [finishLine, fold_other h]; rfl

theorem mem_cutLines : ∀ {ts l : List Tok}, l ∈ cutLines ts → ∀ t ∈ l, t ∈ ts := by
  intro ts
  induction ts with
  | nil => intro l h; simp [cutLines] at h
  | cons t ts ih =>
    intro l h u hu
    unfold cutLines at h
    split at h
    · rcases List.mem_cons.1 h with rfl | h
      · cases hu
      · exact List.mem_cons_of_mem _ (ih h u hu)
    · cases hc : cutLines ts with
      | nil => rw [hc] at h; simp at h; subst h; simp at hu; simp [hu]
      | cons x xs =>
        rw [hc] at h
        rcases List.mem_cons.1 h with rfl | h
        · rcases List.mem_cons.1 hu with rfl | hu
          · simp
          · exact List.mem_cons_of_mem _ (ih (by rw [hc]; simp) u hu)
        · exact List.mem_cons_of_mem _ (ih (by rw [hc]; simp [h]) u hu)

/-- a text without addresses -/
theorem linesOf_eq {s : String} (h : ∀ t ∈ tokensOf s, t.kind ≠ MaybeEmail) : linesOf s = (cutLines (tokensOf s)).map Line.new := by
  unfold linesOf
  refine List.map_congr_left fun l hl => ?_
  rw [finishLine_other fun t ht => h t (mem_cutLines hl t ht)]

theorem addressStart_le (l : List Tok) (n : Nat) : addressStart l n ≤ n := by
  induction n with
  | zero => exact Nat.le_refl 0
  | succ n ih =>
    unfold addressStart
    split
    · exact Nat.le_refl _
    · split
      · exact Nat.le_refl _
      · split
        · omega
        · exact Nat.le_refl _

/-- what a push leaves of the line, and what it adds -/
theorem push_split (l : List Tok) (t : Tok) : ∃ a b u, l = a ++ b ∧ pushTok l t = a ++ [u] ∧
    u.lexeme = b.flatMap Tok.lexeme ++ t.lexeme ∧ (u.kind = t.kind ∨ u.kind = Word ∨ u.kind = Email) := by
  have hr : ∀ l : List Tok, ∃ a b u, l = a ++ b ∧ l ++ [retag t] = a ++ [u] ∧ u.lexeme = b.flatMap Tok.lexeme ++ t.lexeme ∧
      (u.kind = t.kind ∨ u.kind = Word ∨ u.kind = Email) := by
    intro l
    refine ⟨l, [], retag t, by simp, rfl, by simp [retag], .inr ?_⟩
    unfold retag
    dsimp only
    split
    · exact .inr rfl
    · exact .inl rfl
  unfold pushTok
  split
  · unfold finalizeEmail
    split
    · rename_i h; subst h; exact hr []
    · dsimp only
      split
      · exact hr l
      · generalize (if ((l[addressStart l (l.length - 1)]?).map Tok.kind).any addressKind then addressStart l (l.length - 1)
          else addressStart l (l.length - 1) + 1) = stop
        split
        · exact ⟨l, [], { t with kind := Word }, by simp, rfl, by simp, .inr (.inl rfl)⟩
        · split
          · exact ⟨l, [], t, by simp, rfl, by simp, .inl rfl⟩
          · exact ⟨_, _, _, (List.take_append_drop stop l).symm, rfl, rfl, .inr (.inr rfl)⟩
  · exact ⟨l, [], t, by simp, rfl, by simp, .inl rfl⟩

theorem fold_text : ∀ (ts l : List Tok), (ts.foldl pushTok l).flatMap Tok.lexeme = l.flatMap Tok.lexeme ++ ts.flatMap Tok.lexeme := by
  intro ts
  induction ts with
  | nil => intro l; simp
  | cons t ts ih =>
    intro l
    rw [List.foldl_cons, ih]
    obtain ⟨a, b, u, h1, h2, h3, _⟩ := push_split l t
    rw [h2, h1]
    simp [h3]

/-- no text is lost -/
theorem finishLine_text (ts : List Tok) : (finishLine ts).flatMap Tok.lexeme = ts.flatMap Tok.lexeme := by
  rw [finishLine, fold_text]; simp

/-- every token of the line is one of the tokens read, or a word or an address, and not empty -/
theorem fold_mem : ∀ (ts l : List Tok), (∀ t ∈ ts, t.lexeme ≠ []) → ∀ u ∈ ts.foldl pushTok l, u ∈ l ∨ u ∈ ts ∨
    (u.kind = Word ∨ u.kind = MaybeEmail ∨ u.kind = Email) ∧ u.lexeme ≠ [] := by
  intro ts
  induction ts with
  | nil => intro l _ u hu; exact .inl hu
  | cons t ts ih =>
    intro l hne u hu
    rw [List.foldl_cons] at hu
    rcases ih _ (fun x hx => hne x (by simp [hx])) u hu with h | h | h
    · by_cases hk : t.kind = MaybeEmail
      · obtain ⟨a, b, v, h1, h2, h3, h4⟩ := push_split l t
        rw [h2] at h
        rcases List.mem_append.1 h with h | h
        · exact .inl (by rw [h1]; simp [h])
        · have : u = v := by simpa using h
          subst this
          refine .inr (.inr ⟨?_, ?_⟩)
          · rcases h4 with h4 | h4 | h4
            · exact .inr (.inl (h4.trans hk))
            · exact .inl h4
            · exact .inr (.inr h4)
          · rw [h3]; intro e
            exact hne t (by simp) (List.append_eq_nil_iff.1 e).2
      · rw [push_other hk] at h
        rcases List.mem_append.1 h with h | h
        · exact .inl h
        · exact .inr (.inl (by simp only [List.mem_singleton] at h; simp [h]))
    · exact .inr (.inl (by simp [h]))
    · exact .inr (.inr h)

theorem finishLine_mem {ts : List Tok} (hne : ∀ t ∈ ts, t.lexeme ≠ []) {u : Tok} (hu : u ∈ finishLine ts) : u ∈ ts ∨
    (u.kind = Word ∨ u.kind = MaybeEmail ∨ u.kind = Email) ∧ u.lexeme ≠ [] := by
  rcases fold_mem ts [] hne u hu with h | h | h
  · cases h
  · exact .inl h
  · exact .inr h

theorem push_email {l : List Tok} {t u : Tok} (ht : t.kind ≠ Email) (hu : u ∈ pushTok l t) (hk : u.kind = Email) :
    u ∈ l ∨ isAddress u.lexeme = true := by
  have hr : ∀ u ∈ l ++ [retag t], u.kind = Email → u ∈ l ∨ isAddress u.lexeme = true := by
    intro u hu hk
    rcases List.mem_append.1 hu with hu | hu
    · exact .inl hu
    · rw [List.mem_singleton.1 hu] at hk ⊢
      simp only [retag] at hk ⊢
      split at hk
      · rename_i h; exact .inr h
      · cases hk
  have ho : ∀ (v : Tok), v.kind ≠ Email → u ∈ l ++ [v] → u ∈ l ∨ isAddress u.lexeme = true := by
    intro v hv hu
    rcases List.mem_append.1 hu with hu | hu
    · exact .inl hu
    · rw [List.mem_singleton.1 hu] at hk; exact absurd hk hv
  unfold pushTok at hu
  split at hu
  · unfold finalizeEmail at hu
    split at hu
    · rename_i h0 
      exact hr u (by rw [h0]; exact hu) hk
    · dsimp only at hu
      split at hu
      · exact hr u hu hk
      · generalize (if ((l[addressStart l (l.length - 1)]?).map Tok.kind).any addressKind then addressStart l (l.length - 1)
          else addressStart l (l.length - 1) + 1) = stop at hu
        split at hu
        · exact ho _ (fun h => TokenKind.noConfusion h) hu
        · rename_i ha
          split at hu
          · exact ho _ ht hu
          · rcases List.mem_append.1 hu with hu | hu
            · exact .inl (List.mem_of_mem_take hu)
            · rw [List.mem_singleton.1 hu]
              exact .inr (by simpa using ha)
  · exact ho _ ht hu

theorem fold_email : ∀ (ts l : List Tok), (∀ t ∈ ts, t.kind ≠ Email) → (∀ t ∈ l, t.kind = Email → isAddress t.lexeme = true) →
    ∀ u ∈ ts.foldl pushTok l, u.kind = Email → isAddress u.lexeme = true := by
  intro ts
  induction ts with
  | nil => intro l _ hl u hu hk; exact hl u hu hk
  | cons t ts ih =>
    intro l hts hl
    rw [List.foldl_cons]
    refine ih _ (fun x hx => hts x (by simp [hx])) fun x hx hk => ?_
    rcases push_email (hts t (by simp)) hx hk with h | h
    · exact hl x h hk
    · exact h

end Verif.Inlines

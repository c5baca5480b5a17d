import Verif.Model.CellSource
import Verif.Props.AttrRefs
/-! Property C118: a table cell that is a document is parsed from what is written in it. -/
namespace Verif.Props
open Verif Verif.Inlines Verif.AttrRefs TokenKind

/-- the tokens of a text start one after the other -/
theorem tokensOf_starts (s : String) : (tokensOf s).Pairwise fun a b => a.loc < b.loc := by
  obtain ⟨toks, h1, h2, _⟩ := C02_lexing_contiguous_and_terminates (Lexer.bs s) [] 0
  unfold tokensOf
  dsimp only
  rw [h1]
  rw [List.pairwise_map]
  have key : ∀ (ts : List Lexer.Tok) (a b : Nat), Lexer.Covers a b ts → ts.Pairwise (fun x y => x.start < y.start) ∧ ∀ t ∈ ts, a ≤ t.start := by
    intro ts
    induction ts with
    | nil => intro a b _; exact ⟨.nil, by simp⟩
    | cons t ts ih =>
      intro a b h
      obtain ⟨x1, x2, x3⟩ := h
      obtain ⟨y1, y2⟩ := ih _ _ x3
      refine ⟨List.pairwise_cons.2 ⟨fun u hu => ?_, y1⟩, ?_⟩
      · have := y2 u hu; omega
      · intro u hu
        rcases List.mem_cons.1 hu with rfl | hu
        · omega
        · have := y2 u hu; omega
  exact (key toks _ _ h2).1

theorem cutLines_starts {ts : List Tok} (h : ts.Pairwise fun a b => a.loc < b.loc) : ∀ l ∈ cutLines ts, l.Pairwise fun a b => a.loc < b.loc := by
  have key : ∀ (ts : List Tok), ∀ l ∈ cutLines ts, l.Sublist ts := by
    intro ts
    induction ts with
    | nil => intro l hl; cases hl
    | cons t ts ih =>
      intro l hl
      unfold cutLines at hl
      split at hl
      · rcases List.mem_cons.1 hl with rfl | hl
        · exact List.nil_sublist _
        · exact (ih l hl).cons _
      · split at hl
        · simp only [List.mem_singleton] at hl
          subst hl
          exact List.Sublist.cons_cons _ (List.nil_sublist _)
        · rename_i l0 ls e
          rcases List.mem_cons.1 hl with rfl | hl
          · exact (ih l0 (by rw [e]; simp)).cons_cons _
          · exact (ih l (by rw [e]; simp [hl])).cons _
  exact fun l hl => h.sublist (key ts l hl)

theorem removeLoop_value {x : Nat} (vs ts : List Tok) (h : ∀ v ∈ vs, v.kind ≠ AttrRef ∧ v.loc = x) :
    intoChars (removeLoop (some x) (vs ++ ts)) = intoChars (removeLoop (some x) ts) := by
  induction vs with
  | nil => rfl
  | cons v vs ih =>
    obtain ⟨h1, h2⟩ := h v (by simp)
    rw [List.cons_append, removeLoop, if_neg h1, if_pos (by rw [h2])]
    simpa [intoChars] using ih fun v hv => h v (by simp [hv])

theorem remove_expanded {cfg : Cfg} : ∀ (l : List Tok) (loc : Option Nat), l.Pairwise (fun a b => a.loc < b.loc) → (∀ x, loc = some x → ∀ t ∈ l, x < t.loc) →
    (cfg.subs = true → ∀ t ∈ l, ∀ v, refValue cfg t = some v → PlainValue v) →
    (cfg.subs = true → ∀ t ∈ l, isMissing cfg t = true → onMissing cfg ≠ some "drop" ∧ onMissing cfg ≠ some "drop-line") →
    intoChars (removeLoop loc (l.flatMap (expand cfg))) = l.flatMap (·.lexeme) := by
  intro l
  induction l with
  | nil => intros; rfl
  | cons t l ih =>
    intro loc hp hloc hv hm
    obtain ⟨hp1, hp2⟩ := List.pairwise_cons.1 hp
    have next : ∀ loc', (∀ x, loc' = some x → ∀ t ∈ l, x < t.loc) → intoChars (removeLoop loc' (l.flatMap (expand cfg))) = l.flatMap (·.lexeme) := fun loc' h =>
      ih loc' hp2 h (fun hs u hu => hv hs u (by simp [hu])) (fun hs u hu => hm hs u (by simp [hu]))
    have one : ∀ u : Tok, u.lexeme = t.lexeme → u.loc = t.loc → intoChars (removeLoop loc (u :: l.flatMap (expand cfg))) = (t :: l).flatMap (·.lexeme) := by
      intro u hu hul
      rw [removeLoop]
      split
      · have := next (some u.loc) (by rintro x ⟨⟩ t ht; rw [hul]; exact hp1 t ht)
        simp only [intoChars, List.flatMap_cons] at this ⊢
        rw [this, hu]
      · rw [if_neg (by
          intro e
          have := hloc _ e t (by simp)
          omega)]
        have := next none (by simp)
        simp only [intoChars, List.flatMap_cons] at this ⊢
        rw [this, hu]
    rw [List.flatMap_cons]
    clear ih
    generalize l.flatMap (expand cfg) = R at next one ⊢
    unfold expand
    by_cases hs : cfg.subs = true
    · rw [if_pos hs]
      cases hr : refValue cfg t with
      | some v =>
        have hk : t.kind = AttrRef := by
          unfold refValue at hr
          split at hr
          · assumption
          · cases hr
        obtain ⟨st, ha⟩ := (hv hs t (by simp) v hr).settled
        simp only [settled, Bool.and_eq_true, List.all_eq_true] at st
        have hq : ∀ w ∈ (valueToks t v).map marked, w.kind ≠ AttrRef ∧ w.loc = t.loc := by
          intro w hw
          obtain ⟨w, hw', rfl⟩ := List.mem_map.1 hw
          obtain ⟨u, hu, rfl⟩ := List.mem_map.1 hw'
          have := st.2 u hu
          simp only [quiet, Bool.and_eq_true, decide_eq_true_eq] at this
          exact ⟨this.1, rfl⟩
        simp only
        rw [List.cons_append, removeLoop, if_pos hk]
        have h1 := removeLoop_value (x := t.loc) _ R hq
        have h2 := next (some t.loc) (by rintro x ⟨⟩ u hu; exact hp1 u hu)
        rw [h2] at h1
        simp only [intoChars, List.flatMap_cons] at h1 ⊢
        rw [h1]
      | none =>
        simp only
        by_cases hmi : isMissing cfg t = true
        · have := hm hs t (by simp) hmi
          rw [if_pos hmi, if_neg (by simp [this.1, this.2])]
          exact one _ rfl rfl
        · rw [if_neg hmi]
          exact one _ rfl rfl
    · rw [if_neg hs]
      exact one _ rfl rfl

/-- C118: the source of a cell that is a document is what is written in the cell, line by line: attribute references are as they were written,
and nothing of the values they have outside the cell is left. Partial: the values are plain text, without references of their own, and missing attributes
are not dropped; it fails otherwise. -/
theorem C118_source_partial {cfg : Cfg} {s : String} (hok : ∀ l ∈ cutLines (tokensOf s), OkLine cfg l)
    (hmiss : cfg.subs = true → ∀ l ∈ cutLines (tokensOf s), ∀ t ∈ l, isMissing cfg t = true → onMissing cfg ≠ some "drop" ∧ onMissing cfg ≠ some "drop-line") :
    ∃ ls, Reads cfg (atStart s) ls ∧ ls.map cellSource = (cutLines (tokensOf s)).map (·.flatMap (·.lexeme)) := by
  refine ⟨_, readAll_lines _ _ (Nat.le_refl _) hok, ?_⟩
  have hf : (cutLines (tokensOf s)).filter (fun l => !l.any (drops cfg)) = cutLines (tokensOf s) := by
    rw [List.filter_eq_self]
    intro l hl
    simp only [Bool.not_eq_true', List.any_eq_false, drops, Bool.and_eq_true, decide_eq_true_eq, not_and]
    intro t ht hs hd hm
    exact absurd hd (hmiss hs l hl t ht hm).2
  rw [hf, List.map_map]
  refine List.map_congr_left fun l hl => ?_
  exact remove_expanded l none (cutLines_starts (tokensOf_starts s) l hl) (by simp) (fun hs => (hok l hl).values hs) (fun hs => hmiss hs l hl)

/-- the sources of the lines of a cell -/
def cellLines (cfg : Cfg) (s : String) : Option (List String) := (readText cfg 100 s).toOption.map (·.map fun l => String.ofList (cellSource l))

example : cellLines (someAttrs none) "x {name}, {Other}\n{foo} y\n*z*" = some ["x {name}, {Other}", "{foo} y", "*z*"] := by decide +kernel

/-- the conditions of the theorem are met: the lines are those of the example of C68, and missing attributes are not dropped -/
example : onMissing (someAttrs none) ≠ some "drop" ∧ onMissing (someAttrs none) ≠ some "drop-line" ∧
    (cutLines (tokensOf "x {name}, {Other}\n{foo} y\n*z*")).all (fun l => startOk (someAttrs none) l && l.all fun t =>
      [none, some "a *b*", some "c"].contains (refValue (someAttrs none) t)) = true := by decide +kernel

/-- C118 fails for values with references: what they refer to is in the source of the cell a second time. -/
theorem C118_nested_violated : cellLines (someAttrs none) "1 {nested} 2" = some ["1 {nested}{other} 2"] := by decide +kernel

/-- C118 fails if missing attributes are dropped: a reference is not in the source of the cell, although the cell may define the attribute itself. -/
theorem C118_missing_violated : cellLines (someAttrs (some (.string "drop"))) "1 {foo} 2" = some ["1  2"] ∧
    cellLines (someAttrs (some (.string "drop-line"))) "1 {foo} 2\n3" = some ["3"] := by decide +kernel

end Verif.Props
